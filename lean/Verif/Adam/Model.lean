import Mathlib.Tactic.Common
import Mathlib.Data.List.Dedup
/-!
Model of the property model engine: `/repo/source/adam.cpp`, `sheet_t::implementation_t`.

Simplifications, all of them (each is repeated where it is used):
* an expression (`array_t` run by the virtual machine with `sheet_t::get` as its variable lookup, see
  test/property_model_eval/queryable_sheet.cpp:25) is a `Prog`: a deterministic program that asks for variables one after the other,
  each question depending on the answers so far, and ends with a value or an exception.  Short-circuit operators, `?:`,
  functions, … are all of this form (the virtual machine itself is modelled in `Verif.Expr`);
* names are the elements of a type with decidable equality (`name_t`, modelled in `Verif.Name`); values a type with decidable
  equality and the two casts the sheet uses;
* cells and relations are numbered by creation: `std::deque` keeps references valid, a `cell_t*` is the number of the cell;
* `int` priorities are unbounded integers (2^31 calls of `set` overflow in C++);
* `bitset<1024>` is a natural number seen as a set of bits (the 1024 bit limit is not modelled: `bitset::set` throws beyond it);
* `hash_index` is a map from names to cells; its iteration order, which is the order of a hash table, is a parameter `ord` of the
  operations which iterate;
* `adobe::sort` is `std::sort`, not stable: the sort is a parameter `srt`, constrained to be some sort (`Spec.SortOk`);
* line positions and messages of exceptions are dropped;
* monitors: `update` returns the list of notifications in the order they are made; the callbacks do not call back into the sheet.
-/
namespace Verif.Adam

/-- An expression as the sheet sees it. -/
inductive Prog (N V : Type) where
  | ret (v : V)
  | fail
  | ask (n : N) (k : V → Prog N V)

/-- models: source/adam.cpp:86-94 (`access_specifier_t`). -/
inductive Access where
  | input | interfaceInput | interfaceOutput | output | logic | constant | invariant
  deriving DecidableEq, Repr

/-- The exceptions the sheet throws; `ub` is not an exception but undefined behaviour. -/
inductive Err (N : Type) where
  | notFound (n : N)        -- "variable … not found.", "input cell … does not exist."
  | unresolved (n : N)      -- "cell … is attached to an unresolved relate clause."
  | cycle                   -- "cycle detected, consider using a relate { } clause."
  | evalFailed              -- an exception of the virtual machine
  | badCast                 -- any_regular_t::cast
  | exists_ (n : N)         -- "cell named … already exists."
  | notApplied              -- "all terms of relation resolve but relation not applied."
  | overConstrained         -- "over constrained."
  | badFunctionCall         -- calling an empty std::function
  | ub
  deriving DecidableEq, Repr

/-- Values (`any_regular_t`) with the casts used by the sheet and the default constructed value. -/
class Values (V : Type) where
  asBool : V → Option Bool
  asArray : V → Option (List V)
  empty : V

abbrev Bits := Nat

/-- models: source/adam.cpp:1106-1114: the two forms of a bound `term_m`. -/
structure Term (N V : Type) where
  prog : Prog N V
  index : Option Nat

/-- models: `calculator_m`: empty, `calculate_expression` bound to an expression, or `get` bound to the name of the cell
(source/adam.cpp:781-791). -/
inductive Calc (N V : Type) where
  | none
  | expr (p : Prog N V)
  | self

/-- models: source/adam.cpp:232-322 (`cell_t`; the signals are replaced by the list of notifications `update` returns). -/
structure Cell (N V : Type) where
  spec : Access
  name : N
  calculator : Calc N V
  linked : Bool
  invariant : Bool
  priority : Int
  resolved : Bool
  evaluated : Bool
  count : Nat              -- relation_count_m
  initialCount : Nat       -- initial_relation_count_m
  dirty : Bool
  state : V
  contributing : Bits
  initContributing : Bits
  term : Option (Term N V)
  input : Option Nat       -- interface_input_m
  relations : List Nat     -- relation_index_m

/-- models: adobe/adam.hpp:548-573 (`sheet_t::relation_t`). -/
structure RelTerm (N V : Type) where
  names : List N
  prog : Prog N V

/-- models: source/adam.cpp:215-230 (`relation_cell_t`); an empty conditional is `none`. -/
structure Rel (N V : Type) where
  cond : Option (Prog N V)
  terms : List (RelTerm N V)
  edges : List Nat
  resolved : Bool

/-- A `hash_index` keyed by name; the list is in order of insertion. -/
abbrev Index (N : Type) := List (N × Nat)

/-- models: adobe/table_index.hpp:640-641 `find`. -/
def Index.find {N : Type} [DecidableEq N] (ix : Index N) (n : N) : Option Nat := ix.lookup n

/-- models: adobe/table_index.hpp:619-622 `insert`: nothing happens when the key is present. -/
def Index.insert {N : Type} [DecidableEq N] (ix : Index N) (n : N) (i : Nat) : Index N :=
  if (ix.find n).isSome then ix else ix ++ [(n, i)]

/-- models: source/adam.cpp:377-419, the members of `implementation_t`.  `getCount` has no field: it is the argument of `get`.
`cell i` is meaningful for `i < size`, `rel i` for `i < nrel`. -/
structure Sheet (N V : Type) where
  size : Nat
  cell : Nat → Cell N V
  nrel : Nat
  rel : Nat → Rel N V
  nameIndex : Index N
  inputIndex : Index N
  outputIndex : Index N
  invariants : List Nat
  priorityHigh : Int
  priorityLow : Int
  condContributing : Bits      -- conditional_indirect_contributing_m
  getStack : List (N × Bool)   -- the top of the stack is the head
  initDirty : Bits
  priorityAccessed : Bits
  valueAccessed : Bits
  active : Bits
  accumulate : Bits            -- accumulate_contributing_m
  hasOutput : Bool
  initMode : Bool              -- initialize_mode_m

variable {N V : Type} [DecidableEq N] [DecidableEq V] [Values V]

/-- A computation on a sheet: it may throw, and what it did before throwing is not undone. -/
def M (N V α : Type) := Sheet N V → Except (Err N) α × Sheet N V

instance : Monad (M N V) where
  pure a := fun s => (.ok a, s)
  bind x f := fun s => match x s with
    | (.ok a, s') => f a s'
    | (.error e, s') => (.error e, s')

def throw {α : Type} (e : Err N) : M N V α := fun s => (.error e, s)
def modify (f : Sheet N V → Sheet N V) : M N V Unit := fun s => (.ok (), f s)
def gets {α : Type} (f : Sheet N V → α) : M N V α := fun s => (.ok (f s), s)

/-- `f` applied to cell `i`. -/
def Sheet.modCell (s : Sheet N V) (i : Nat) (f : Cell N V → Cell N V) : Sheet N V :=
  { s with cell := fun j => if j = i then f (s.cell j) else s.cell j }

def Sheet.modRel (s : Sheet N V) (r : Nat) (f : Rel N V → Rel N V) : Sheet N V :=
  { s with rel := fun j => if j = r then f (s.rel j) else s.rel j }

def Bits.single (i : Nat) : Bits := 2 ^ i

/-- Runs an expression with `g` as variable lookup.
models: source/adam.cpp:917-925 `calculate_expression` (and 107-119 `evaluate`). -/
def Prog.run (g : N → M N V V) : Prog N V → M N V V
  | .ret v => pure v
  | .fail => throw .evalFailed
  | .ask n k => do
      let v ← g n
      Prog.run g (k v)

/-- models: source/adam.cpp:328-331 `calculate_indexed` (`operator[]` of a vector is unchecked: undefined beyond the end). -/
def Term.run (g : N → M N V V) (t : Term N V) : M N V V := do
  let v ← t.prog.run g
  match t.index with
  | none => pure v
  | some k => match Values.asArray v with
      | none => throw .badCast
      | some l => match l[k]? with
          | none => throw .ub
          | some x => pure x

/-- models: source/adam.cpp:463-479 `cell_t::calculate`. -/
def calculate (g : N → M N V V) (i : Nat) : M N V Unit := do
  let c ← gets (·.cell i)
  if c.evaluated then pure ()
  else if c.count ≠ 0 then throw (.unresolved c.name)
  else do
    let r ← match c.calculator with
      | .none => throw .badFunctionCall
      | .expr p => p.run g
      | .self => g c.name
    modify fun s => s.modCell i fun c => { c with dirty := decide (r ≠ c.state), state := r, evaluated := true }

/-- models: source/adam.cpp:1462-1477, `get` while initializers are evaluated. -/
def getInit (n : N) : M N V V := do
  let s ← gets id
  match s.inputIndex.find n with
  | some i => do
      modify fun s => { s with accumulate := s.accumulate ||| (s.cell i).initContributing }
      pure (s.cell i).state
  | none => match s.nameIndex.find n with
      | none => throw (.notFound n)
      | some i =>
          if (s.cell i).spec ≠ .constant then throw (.notFound n)
          else do
            modify fun s => { s with accumulate := s.accumulate ||| (s.cell i).initContributing }
            pure (s.cell i).state

/-- Runs `x`, then pops the get stack whether or not `x` threw, when `b`.
models: source/adam.cpp:1537-1544, the `catch (...)` and the code after it. -/
def popAfter {α : Type} (b : Bool) (x : M N V α) : M N V α := fun s =>
  match x s with
  | (r, s') => (r, if b then { s' with getStack := s'.getStack.tail } else s')

/-- `get_stack_m.back().second = true`. -/
def markTop : List (N × Bool) → List (N × Bool)
  | [] => []
  | (n, _) :: l => (n, true) :: l

/-- models: source/adam.cpp:1520-1536, the guarded part of `get`. -/
def getFresh (g : N → M N V V) (i : Nat) : M N V Unit := do
  let c ← gets (·.cell i)
  if c.evaluated then
    modify fun s => { s with accumulate := s.accumulate ||| (s.cell i).contributing }
  else do
    let old ← gets (·.accumulate)
    modify fun s => { s with accumulate := 0 }
    calculate g i
    modify fun s => { (s.modCell i fun c => { c with contributing := s.accumulate }) with accumulate := s.accumulate ||| old }
  if c.spec ≠ .input ∧ c.spec ≠ .constant then
    modify fun s => s.modCell i fun c => { c with contributing := c.contributing ||| s.condContributing }

/-- models: source/adam.cpp:1490-1547, `get` after the cycle check; `g` answers the nested lookups. -/
def getBody (g : N → M N V V) (n : N) : M N V V := do
  let s ← gets id
  match s.nameIndex.find n with
  | none => throw (.notFound n)
  | some i =>
      let c := s.cell i
      if (s.getStack.head?.map (·.1)) = some n then
        match c.input with
        | none => throw .ub
        | some j =>
            match (s.getStack.head?.map (·.2)), c.term with
            | some false, some t => do
                modify fun s => { s with getStack := markTop s.getStack }
                t.run g
            | _, _ => do
                modify fun s => { s with
                  valueAccessed := s.valueAccessed ||| Bits.single j
                  accumulate := s.accumulate ||| (s.cell j).contributing }
                pure (s.cell j).state
      else do
        let iface := decide (c.spec = .interfaceOutput)
        if iface then modify fun s => { s with getStack := (n, false) :: s.getStack }
        popAfter iface (getFresh g i)
        gets fun s => (s.cell i).state

/-- models: source/adam.cpp:1451-1547 `get`.  The first argument is `cell_set_m.size() - get_count_m` at entry: each nested call
increments `get_count_m`, and the call which makes it exceed the number of cells throws. -/
def get : Nat → N → M N V V
  | 0, n => do
      if (← gets (·.initMode)) then getInit n else throw .cycle
  | f + 1, n => do
      if (← gets (·.initMode)) then getInit n else getBody (get f) n

/-- The lookup of the virtual machine when no `get` is running. -/
def lookup (n : N) : M N V V := do
  let size ← gets (·.size)
  get size n

/-- models: source/adam.cpp:640-647 `inspect` and 917-925 `calculate_expression`, outside of any `get`. -/
def evaluate (p : Prog N V) : M N V V := do
  let size ← gets (·.size)      -- evaluation does not add cells
  p.run (get size)

/-- Saves the mode, runs `x` in initialize mode, restores the mode.
models: source/adam.cpp:131-139 `scope_value_t`. -/
def inInitMode {α : Type} (x : M N V α) : M N V α := fun s =>
  match x { s with initMode := true } with
  | (r, s') => (r, { s' with initMode := s.initMode })

/-- models: source/adam.cpp:651-671 `set(name, value)`. -/
def set (n : N) (v : V) : M N V Unit := do
  let s ← gets id
  match s.inputIndex.find n with
  | none => throw (.notFound n)
  | some i =>
      modify fun s =>
        let s1 := { s with priorityHigh := s.priorityHigh + 1 }
        let s2 := s1.modCell i fun c => { c with state := v, priority := s1.priorityHigh }
        if (s.cell i).spec = .input then { s2 with initDirty := s2.initDirty ||| Bits.single i } else s2

/-- models: source/adam.cpp:1426-1430 `set(dictionary)`; the list is in the order of the iteration. -/
def setAll : List (N × V) → M N V Unit
  | [] => pure ()
  | (n, v) :: l => do
      set n v
      setAll l

/-- `++priority_high_m; f->priority_m = priority_high_m`. -/
def raise (i : Nat) : M N V Unit := modify fun s =>
  { (s.modCell i fun c => { c with priority := s.priorityHigh + 1 }) with priorityHigh := s.priorityHigh + 1 }

def raiseAll : List Nat → M N V Unit
  | [] => pure ()
  | i :: l => do
      raise i
      raiseAll l

/-- A sort of cells by a key; `std::sort` is any function satisfying `Spec.SortOk`. -/
abbrev Sorter := (Nat → Int) → List Nat → List Nat

/-- models: source/adam.cpp:675-712 `touch`. -/
def touch (srt : Sorter) (ns : List N) : M N V Unit := do
  let s ← gets id
  raiseAll (srt (fun i => (s.cell i).priority) (ns.filterMap s.inputIndex.find))

/-- A cell as the constructors leave it.
models: source/adam.cpp:483-517, the four constructors of `cell_t` (members a constructor leaves uninitialised are never read before
`clear_dirty`; they are false here). -/
def mkCell (spec : Access) (n : N) (calculator : Calc N V) (linked : Bool) (resolved evaluated : Bool) (v : V)
    (contributing initContributing : Bits) (input : Option Nat) : Cell N V :=
  { spec := spec, name := n, calculator := calculator, linked := linked, invariant := false, priority := 0, resolved := resolved,
    evaluated := evaluated, count := 0, initialCount := 0, dirty := false, state := v, contributing := contributing,
    initContributing := initContributing, term := none, input := input, relations := [] }

/-- `cell_set_m.push_back`. -/
def pushCell (c : Cell N V) : M N V Unit := modify fun s =>
  { s with size := s.size + 1, cell := fun j => if j = s.size then c else s.cell j }

/-- `if (!name_index_m.insert(cell_set_m.back()).second) throw …`, for the last cell. -/
def insertName (n : N) : M N V Unit := do
  let s ← gets id
  if (s.nameIndex.find n).isSome then throw (.exists_ n)
  else modify fun s => { s with nameIndex := s.nameIndex.insert n (s.size - 1) }

/-- models: source/adam.cpp:716-733 `add_input`; `none` is the empty initializer. -/
def addInput (n : N) (init : Option (Prog N V)) : M N V Unit := inInitMode do
  let v ← match init with
    | none => pure Values.empty
    | some p => evaluate p
  let k ← gets (·.size)
  pushCell (mkCell .input n .none false true true v 0 (Bits.single k) none)
  modify fun s => { s with inputIndex := s.inputIndex.insert n k }
  insertName n

/-- models: source/adam.cpp:737-753 `add_output`. -/
def addOutput (n : N) (p : Prog N V) : M N V Unit := do
  let k ← gets (·.size)
  pushCell (mkCell .output n (.expr p) false false false Values.empty 0 0 none)
  modify fun s => { s with outputIndex := s.outputIndex.insert n k }
  insertName n
  modify fun s => { s with hasOutput := true }

/-- models: source/adam.cpp:1323-1333 `initialize_one`. -/
def initializeOne (i : Nat) : M N V Unit := do
  modify fun s => { s with accumulate := 0 }
  let c ← gets (·.cell i)
  let v ← match c.calculator with
    | .none => throw .badFunctionCall
    | .expr p => evaluate p
    | .self => lookup c.name
  modify fun s =>
    { (s.modCell i fun c => { c with state := v, priority := s.priorityHigh + 1,
                                      initContributing := c.initContributing ||| s.accumulate }) with
      priorityHigh := s.priorityHigh + 1 }

/-- The calculator of an input half: `initializer` bound, or left empty. models: source/adam.cpp:766-773. -/
def Calc.ofInit : Option (Prog N V) → Calc N V
  | .none => .none
  | some p => .expr p

/-- The calculator of an output half: the expression, or `get` bound to the name of the cell. models: source/adam.cpp:781-791. -/
def Calc.ofExpr : Option (Prog N V) → Calc N V
  | .none => .self
  | some p => .expr p

/-- models: source/adam.cpp:759-798 `add_interface` with expressions (`none` is the empty array). -/
def addInterface (n : N) (linked : Bool) (init expr : Option (Prog N V)) : M N V Unit := inInitMode do
  let k ← gets (·.size)
  pushCell (mkCell .interfaceInput n (Calc.ofInit init) linked true true Values.empty
    (Bits.single k) 0 none)
  modify fun s => { s with inputIndex := s.inputIndex.insert n k }
  if init.isSome then initializeOne k
  pushCell (mkCell .interfaceOutput n (Calc.ofExpr expr) false false false Values.empty 0 0 (some k))
  modify fun s => { s with outputIndex := s.outputIndex.insert n (k + 1) }
  insertName n

/-- models: source/adam.cpp:802-821 `add_interface` with a value. -/
def addInterfaceValue (n : N) (v : V) : M N V Unit := do
  let k ← gets (·.size)
  pushCell (mkCell .interfaceInput n .none true true true Values.empty (Bits.single k) 0 none)
  modify fun s => { s with inputIndex := s.inputIndex.insert n k }
  modify fun s => { (s.modCell k fun c => { c with state := v, priority := s.priorityHigh + 1 }) with
    priorityHigh := s.priorityHigh + 1 }
  pushCell (mkCell .interfaceOutput n .self false false false Values.empty 0 0 (some k))
  modify fun s => { s with outputIndex := s.outputIndex.insert n (k + 1) }
  insertName n

/-- models: source/adam.cpp:841-847 `add_constant` with a value. -/
def addConstantValue (n : N) (v : V) : M N V Unit := do
  pushCell (mkCell .constant n .none false true true v 0 0 none)
  insertName n

/-- models: source/adam.cpp:825-837 `add_constant` with an expression. -/
def addConstant (n : N) (p : Prog N V) : M N V Unit := inInitMode do
  let v ← evaluate p
  addConstantValue n v

/-- models: source/adam.cpp:851-862 `add_logic`. -/
def addLogic (n : N) (p : Prog N V) : M N V Unit := do
  pushCell (mkCell .logic n (.expr p) false false false Values.empty 0 0 none)
  insertName n

/-- models: source/adam.cpp:866-882 `add_invariant`. -/
def addInvariant (n : N) (p : Prog N V) : M N V Unit := do
  let k ← gets (·.size)
  pushCell (mkCell .invariant n (.expr p) false false false Values.empty 0 0 none)
  modify fun s => { s with outputIndex := s.outputIndex.insert n k }
  insertName n
  modify fun s => { s with invariants := s.invariants ++ [k] }

/-- The loop of `add_relation`. models: source/adam.cpp:902-912. -/
def attach (r : Nat) : List N → M N V Unit
  | [] => pure ()
  | n :: l => do
      let s ← gets id
      match s.outputIndex.find n with
      | none => throw (.notFound n)
      | some i =>
          if (s.cell i).input.isNone then throw (.notFound n)
          else do
            modify fun s =>
              (s.modRel r fun rl => { rl with edges := rl.edges ++ [i] }).modCell i fun c =>
                { c with relations := c.relations ++ [r], initialCount := c.initialCount + 1 }
            attach r l

/-- models: source/adam.cpp:886-913 `add_relation`.  `sort_unique` only serves to remove duplicates: the order of the names (that of
`name_t`, hence of addresses or hashes) is replaced by the order of first appearance from the end. -/
def addRelation (cond : Option (Prog N V)) (terms : List (RelTerm N V)) : M N V Unit := do
  let r ← gets (·.nrel)
  modify fun s => { s with
    nrel := s.nrel + 1
    rel := fun j => if j = s.nrel then { cond := cond, terms := terms, edges := [], resolved := false } else s.rel j }
  attach r (terms.flatMap (·.names)).dedup

/-- `size_t` decrement. -/
def decr (k : Nat) : Nat := if k = 0 then 2 ^ 64 - 1 else k - 1

/-- models: source/adam.cpp:361-365 `resolved(relation_t)`: some cell on the left is resolved.  (`output_cell` dereferences the result
of a `find`; `add_relation` has checked that every name is there.) -/
def termResolved (s : Sheet N V) (t : RelTerm N V) : Bool :=
  t.names.any fun n => match s.outputIndex.find n with
    | some i => (s.cell i).resolved
    | none => false

/-- `output_cell(name)`, undefined when there is none. models: source/adam.cpp:349-358. -/
def outputCell (n : N) : M N V Nat := do
  let s ← gets id
  match s.outputIndex.find n with
  | some i => pure i
  | none => throw .ub

/-- models: source/adam.cpp:1121-1124. -/
def lowerPriority (j : Nat) (s : Sheet N V) : Sheet N V :=
  if (s.cell j).linked then
    { (s.modCell j fun c => { c with priority := s.priorityLow - 1 }) with priorityLow := s.priorityLow - 1 }
  else s

/-- The loop over the cells of the term which is applied; returns the cells to push, the first to push first.
models: source/adam.cpp:1099-1130. -/
def applyTerm (t : RelTerm N V) : Nat → List N → M N V (List Nat)
  | _, [] => pure []
  | k, n :: l => do
      let o ← outputCell n
      let c ← gets (·.cell o)
      if c.term.isSome then throw .overConstrained
      else do
        modify fun s => s.modCell o fun c => { c with
          term := some { prog := t.prog, index := if t.names.length = 1 then none else some k }
          count := decr c.count }
        match c.input with
        | none => throw .ub
        | some j => do
            modify (lowerPriority j)
            if (← gets fun s => (s.cell o).count) ≠ 0 then do
              let rest ← applyTerm t (k + 1) l
              pure (o :: rest)
            else do
              modify fun s => s.modCell o fun c => { c with resolved := true }
              applyTerm t (k + 1) l

/-- The loop over the cells of the other terms. models: source/adam.cpp:1143-1152. -/
def detach : List N → M N V Unit
  | [] => pure ()
  | n :: l => do
      let o ← outputCell n
      modify fun s => if (s.cell o).resolved then s else s.modCell o fun c => { c with count := decr c.count }
      detach l

/-- The position of the first unresolved term. -/
def firstUnresolved (s : Sheet N V) (ts : List (RelTerm N V)) : Option Nat :=
  ts.findIdx? fun t => !termResolved s t

/-- The body of the loop over the relations of the popped cell `i`; returns the cells to push.
models: source/adam.cpp:1077-1152. -/
def flowRel (i r : Nat) : M N V (List Nat) := do
  let rl ← gets (·.rel r)
  if rl.resolved then pure []
  else do
    modify fun s => s.modCell i fun c => { c with count := decr c.count }
    let s ← gets id
    match firstUnresolved s rl.terms with
    | none => throw .notApplied
    | some k =>
        match rl.terms[k]? with
        | none => pure []       -- not possible
        | some t =>
            if (rl.terms.drop (k + 1)).any (fun t => !termResolved s t) then pure []
            else do
              modify fun s => s.modRel r fun rl => { rl with resolved := true }
              let push ← applyTerm t 0 t.names
              detach ((rl.terms.eraseIdx k).flatMap (·.names)).dedup
              pure push

/-- models: source/adam.cpp:1076-1153; the new stack, its top first. -/
def flowCell (i : Nat) (stack : List Nat) : List Nat → M N V (List Nat)
  | [] => pure stack
  | r :: rs => do
      let push ← flowRel i r
      flowCell i (push.reverse ++ stack) rs

/-- models: source/adam.cpp:1067-1156 the loop of `flow`.  The first argument bounds the number of iterations
(that the bound given by `flow` is never reached is part of C51: `update` does not end in `.ub`). -/
def flowLoop : Nat → List Nat → M N V Unit
  | _, [] => pure ()
  | 0, _ :: _ => throw .ub
  | b + 1, i :: stack => do
      let c ← gets (·.cell i)
      if c.count = 0 then flowLoop b stack
      else do
        modify fun s => s.modCell i fun c => { c with resolved := true }
        let stack' ← flowCell i stack c.relations
        flowLoop b stack'

/-- `cell_t::priority`. models: source/adam.cpp:286-291. -/
def Sheet.priority (s : Sheet N V) (i : Nat) : Int := match (s.cell i).input with
  | some j => (s.cell j).priority
  | none => (s.cell i).priority

/-- The cells attached to unresolved relations, without repetition. models: source/adam.cpp:1038-1043. -/
def flowCells (s : Sheet N V) : List Nat :=
  ((List.range s.nrel).flatMap fun r => if (s.rel r).resolved then [] else (s.rel r).edges).dedup

/-- The number of iterations given to the loop of `flow`: each cell of the initial stack, and each cell of a term, is pushed at most once. -/
def flowBound (s : Sheet N V) : Nat :=
  (flowCells s).length + ((List.range s.nrel).map fun r => ((s.rel r).terms.map (·.names.length)).sum).sum

def bitsOf (l : List Nat) : Bits := l.foldl (fun b i => b ||| Bits.single i) 0

/-- models: source/adam.cpp:1036-1157 `flow`; returns `priority_accessed`. -/
def flow (srt : Sorter) : M N V Bits := do
  let s ← gets id
  let cells := srt s.priority (flowCells s)
  flowLoop (flowBound s) cells.reverse
  pure (bitsOf (cells.filterMap fun i => (s.cell i).input))

/-- models: source/adam.cpp:302-314 `clear_dirty`. -/
def Cell.clearDirty (c : Cell N V) : Cell N V :=
  let e := decide (c.spec = .input ∨ c.spec = .constant)
  { c with dirty := false, count := c.initialCount, term := none, evaluated := e, resolved := e }

/-- models: source/adam.cpp:1185-1189. -/
def decrEdges (l : List Nat) (s : Sheet N V) : Sheet N V :=
  l.foldl (fun s i => s.modCell i fun c => { c with count := decr c.count }) s

/-- models: source/adam.cpp:1177-1192, the loop over the conditionals; the argument is the list of the relations left. -/
def conditionals : List Nat → M N V Unit
  | [] => pure ()
  | r :: rs => do
      let rl ← gets (·.rel r)
      match rl.cond with
      | none => conditionals rs
      | some p => do
          let v ← evaluate p
          match Values.asBool v with
          | none => throw .badCast
          | some true => conditionals rs
          | some false => do
              modify (decrEdges rl.edges)
              modify fun s => s.modRel r fun rl => { rl with resolved := true }
              conditionals rs

/-- models: source/adam.cpp:1216-1244, one output cell.  (An exception of `calculate` leaves the get stack as it is.) -/
def calcOutput (i : Nat) : M N V Unit := do
  let c ← gets (·.cell i)
  if c.evaluated then pure ()
  else do
    modify fun s => { s with accumulate := 0 }
    if c.spec = .interfaceOutput then modify fun s => { s with getStack := (c.name, false) :: s.getStack }
    let size ← gets (·.size)
    calculate (get size) i
    if c.spec = .interfaceOutput then modify fun s => { s with getStack := s.getStack.tail }
    modify fun s => s.modCell i fun c => { c with contributing := s.accumulate ||| s.condContributing }
  modify fun s => match (s.cell i).input with
    | none => s
    | some j => if (s.cell j).linked then s.modCell j fun c => { c with state := (s.cell i).state } else s

def calcOutputs : List Nat → M N V Unit
  | [] => pure ()
  | i :: l => do
      calcOutput i
      calcOutputs l

/-- models: source/adam.cpp:1249-1258, the invariants. -/
def poisonLoop (b : Bits) : List Nat → M N V Bits
  | [] => pure b
  | i :: l => do
      let c ← gets (·.cell i)
      match Values.asBool c.state with
      | none => throw .badCast
      | some true => poisonLoop b l
      | some false => poisonLoop (b ||| c.contributing) l

/-- What the monitors are told. -/
inductive Event (N V : Type) where
  | invariant (i : Nat) (b : Bool)
  | value (i : Nat) (v : V)
  | contributing (i : Nat) (b : Bits)
  | enabled (priorityAccessed active : Bits)

/-- models: source/adam.cpp:1283-1309, the loop over the output cells which notifies. -/
def notify (poison : Bits) (active : Bits) : List Nat → M N V (List (Event N V) × Bits)
  | [] => pure ([], active)
  | i :: l => do
      let s ← gets id
      let c := s.cell i
      let inv := decide (poison &&& c.contributing = 0)
      modify fun s => s.modCell i fun c => { c with invariant := inv }
      let active' := if c.spec = .output ∨ (s.hasOutput = false ∧ c.spec = .interfaceOutput) then active ||| c.contributing
        else active
      let (ev, a) ← notify poison active' l
      pure ((if inv = c.invariant then [] else [.invariant i inv]) ++ (if c.dirty then [.value i c.state] else []) ++
        [.contributing i c.contributing] ++ ev, a)

/-- models: source/adam.cpp:1166-1175. -/
def startUpdate (s : Sheet N V) : Sheet N V :=
  { s with
    condContributing := 0, valueAccessed := 0, accumulate := 0
    cell := fun i => (s.cell i).clearDirty
    rel := fun r => { s.rel r with resolved := false } }

/-- models: source/adam.cpp:1161-1319 `update`.  `ord` is the iteration order of `output_index_m`. -/
def update (srt : Sorter) (ord : List Nat) : M N V (List (Event N V)) := do
  modify startUpdate
  conditionals (List.range (← gets (·.nrel)))
  modify fun s => { s with condContributing := s.accumulate }
  let pa ← flow srt
  calcOutputs ord
  let poison ← poisonLoop 0 (← gets (·.invariants))
  let (ev, active) ← notify poison pa ord
  modify fun s => { s with priorityAccessed := pa, active := active }
  pure (ev ++ [.enabled pa active])

/-- models: source/adam.cpp:1340-1351, the loop of `reinitialize`. -/
def reinitLoop : List Nat → M N V Unit
  | [] => pure ()
  | i :: l => do
      let s ← gets id
      match (s.cell i).input with
      | none => reinitLoop l
      | some j =>
          if s.initDirty &&& (s.cell j).initContributing = 0 then reinitLoop l
          else do
            initializeOne j
            reinitLoop l

/-- models: source/adam.cpp:1337-1354 `reinitialize`. -/
def reinitialize (ord : List Nat) : M N V Unit := inInitMode do
  reinitLoop ord
  modify fun s => { s with initDirty := 0 }

/-- models: source/adam.cpp:1435-1447 `operator[]` (the assertions on `updated_m` and `evaluated_m` are not part of the model). -/
def Sheet.value (s : Sheet N V) (n : N) : Option V := (s.nameIndex.find n).map fun i => (s.cell i).state

/-- models: source/adam.cpp:1015-1017 `has_input` and 1021-1023 `has_output`. -/
def Sheet.hasInput (s : Sheet N V) (n : N) : Bool := (s.inputIndex.find n).isSome
def Sheet.hasOutputCell (s : Sheet N V) (n : N) : Bool := (s.outputIndex.find n).isSome

/-- The contributing bits of the output cell named `n` (what `contributing_to_cell` reports).
models: source/adam.cpp:1374-1381. -/
def Sheet.contributingTo (s : Sheet N V) (n : N) : Option Bits := (s.outputIndex.find n).map fun i => (s.cell i).contributing

/-- models: source/adam.cpp:625-636, the constructor. -/
def Sheet.empty (n0 : N) : Sheet N V :=
  { size := 0, cell := fun _ => mkCell .constant n0 .none false true true Values.empty 0 0 none, nrel := 0,
    rel := fun _ => { cond := none, terms := [], edges := [], resolved := false }, nameIndex := [], inputIndex := [],
    outputIndex := [], invariants := [], priorityHigh := 0, priorityLow := 0, condContributing := 0, getStack := [],
    initDirty := 0, priorityAccessed := 0, valueAccessed := 0, active := 0, accumulate := 0, hasOutput := false, initMode := false }

end Verif.Adam
