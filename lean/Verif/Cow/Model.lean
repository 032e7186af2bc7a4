import Verif.Cow.Spec
/-
Model of adobe/copy_on_write.hpp and adobe/counter.hpp: any number of threads that each own some `copy_on_write` objects
("handles"), in every interleaving.

A step makes at most one access to memory that threads share (a reference count, a stored value, the allocator); what a thread
does to its own variables is done together with one of those.  Atomic operations are sequentially consistent.  A handle
belongs to one thread at a time, as the library requires, and can be handed over.  The allocator returns any address that is
not in use, so addresses are reused.  Counts do not overflow.  `write()` returns a reference; the model has the client store
one value through it before it does anything else.
-/
namespace Verif.Cow
open Spec (put)

variable {V : Type}

/-- models: adobe/copy_on_write.hpp:339-358 `implementation_t`: the count and the value (the allocator is not modelled). -/
structure Block (V : Type) where
  count : Nat
  value : V

/-- where a thread is within an operation on handle `h` -/
inductive PC (V : Type) where
  /-- between operations -/
  | idle
  /-- `write()`, the value is shared: `allocate(object_m, object_m->value_m)` is next; then `v` will be stored -/
  | clone (h : Nat) (v : V)
  /-- `operator=(T)`, the value is shared: `allocate_move(object_m, x)` is next -/
  | fresh (h : Nat) (v : V)
  /-- `reset(q)` is next; then `v` is stored if `st` -/
  | reset (h q : Nat) (v : V) (st : Bool)
  /-- `destroy(p)`, `deallocate(p)` is next; then the value is stored into the handle, if there is one -/
  | free (p : Nat) (k : Option (Nat × V))
  /-- the reference to the value is known; storing `v` is next -/
  | store (h : Nat) (v : V)

structure St (V : Type) where
  heap : Nat → Option (Block V)
  /-- `object_m` of the handles that exist -/
  handle : Nat → Option (Option Nat)
  owner : Nat → Nat
  pc : Nat → PC V
  /-- `default_s` and whether `release_default` was called -/
  dflt : Option Nat
  exited : Bool

def St.init : St V := ⟨fun _ => none, fun _ => none, fun _ => 0, fun _ => .idle, none, false⟩

inductive Act (V : Type) where
  | construct (t h : Nat) (v : V) (q : Nat)
  | initDefault (t q : Nat)
  | dflt (t h : Nat)
  | copy (t d s : Nat)
  | move (t d s : Nat)
  | swap (t a b : Nat)
  | destroy (t h : Nat)
  | write (t h : Nat) (v : V)
  | assign (t h : Nat) (v : V) (q : Nat)
  | read (t h : Nat)
  | equal (t a b : Nat)
  | less (t a b : Nat)
  | give (t h t' : Nat)
  | exit (t : Nat)
  | cont (t q : Nat)
  | throw (t : Nat)

/-- `blocked`: the step cannot be taken (now, or because of a precondition); `error`: memory that is not allocated is used -/
inductive Out (V : Type) where
  | blocked
  | error
  | ok (s : St V) (e : Option (Spec.Ev V))

/-- the thread is between operations and owns the handle -/
def St.owns (s : St V) (t h : Nat) : Prop := s.owner h = t ∧ s.handle h ≠ none

instance (s : St V) (t h : Nat) : Decidable (s.owns t h) := by unfold St.owns; infer_instance

def PC.isIdle : PC V → Bool
  | .idle => true
  | _ => false

/-- models: adobe/counter.hpp:86 `increment`. -/
def Block.inc (b : Block V) : Block V := { b with count := b.count + 1 }
/-- models: adobe/counter.hpp:88 `decrement`: the new block and whether the count is 0 now. -/
def Block.dec (b : Block V) : Block V × Bool := ({ b with count := b.count - 1 }, b.count - 1 == 0)
/-- models: adobe/counter.hpp:90 `is_one`. -/
def Block.isOne (b : Block V) : Bool := b.count == 1

/-- models: adobe/copy_on_write.hpp:110 `copy_on_write(T)` (also 99-103, with `V()`): allocates the block `q` (279-292,
    266-277) whose count starts at 1 (adobe/counter.hpp:84). -/
def construct (s : St V) (t h : Nat) (v : V) (q : Nat) : Out V :=
  if (s.pc t).isIdle = true ∧ s.handle h = none ∧ s.heap q = none then
    .ok { s with heap := put s.heap q (some ⟨1, v⟩), handle := put s.handle h (some (some q)), owner := put s.owner h t } (some (.construct h v))
  else .blocked

/-- models: adobe/copy_on_write.hpp:363-370 `init_default`, which `std::call_once` (91) performs once, before any default
    constructor continues. -/
def initDefault (v0 : V) (s : St V) (t q : Nat) : Out V :=
  if (s.pc t).isIdle = true ∧ s.dflt = none ∧ s.exited = false ∧ s.heap q = none then
    .ok { s with heap := put s.heap q (some ⟨1, v0⟩), dflt := some q } none
  else .blocked

/-- models: adobe/copy_on_write.hpp:90-94 the default constructor, after `call_once`. -/
def dfltConstruct (s : St V) (t h : Nat) : Out V :=
  if (s.pc t).isIdle = true ∧ s.handle h = none ∧ s.exited = false then
    match s.dflt with
    | none => .blocked
    | some p => match s.heap p with
      | none => .error
      | some b => .ok { s with heap := put s.heap p (some b.inc), handle := put s.handle h (some (some p)), owner := put s.owner h t } (some (.dflt h))
  else .blocked

/-- models: adobe/copy_on_write.hpp:116-119 the copy constructor. -/
def copy (s : St V) (t d src : Nat) : Out V :=
  if (s.pc t).isIdle = true ∧ s.handle d = none ∧ s.owns t src then
    match s.handle src with
    | some (some p) => match s.heap p with
      | none => .error
      | some b => .ok { s with heap := put s.heap p (some b.inc), handle := put s.handle d (some (some p)), owner := put s.owner d t } (some (.copy d src))
    | some none => .ok { s with handle := put s.handle d (some none), owner := put s.owner d t } (some (.copy d src))
    | none => .blocked
  else .blocked

/-- models: adobe/copy_on_write.hpp:121 the move constructor. -/
def move (s : St V) (t d src : Nat) : Out V :=
  if (s.pc t).isIdle = true ∧ s.handle d = none ∧ s.owns t src then
    match s.handle src with
    | some r => .ok { s with handle := put (put s.handle src (some none)) d (some r), owner := put s.owner d t } (some (.move d src))
    | none => .blocked
  else .blocked

/-- models: adobe/copy_on_write.hpp:227-229 `swap`.  (`operator=(copy_on_write x)`, 130-133, is copy or move construction of a
    temporary, `swap` and destruction of the temporary.) -/
def swap (s : St V) (t a b : Nat) : Out V :=
  if (s.pc t).isIdle = true ∧ s.owns t a ∧ s.owns t b then
    match s.handle a, s.handle b with
    | some x, some y => .ok { s with handle := put (put s.handle a (some y)) b (some x) } (some (.swap a b))
    | _, _ => .blocked
  else .blocked

/-- models: adobe/copy_on_write.hpp:294-312 `release`, up to the deallocation: the new heap and whether `p` must be freed. -/
def release (heap : Nat → Option (Block V)) (p : Nat) : Option ((Nat → Option (Block V)) × Bool) :=
  match heap p with
  | none => none
  | some b => some (put heap p (some b.dec.1), b.dec.2)

/-- models: adobe/copy_on_write.hpp:123 the destructor. -/
def destroy (s : St V) (t h : Nat) : Out V :=
  if (s.pc t).isIdle = true ∧ s.owns t h then
    match s.handle h with
    | some none => .ok { s with handle := put s.handle h none } (some (.destroy h))
    | some (some p) => match release s.heap p with
      | none => .error
      | some (heap, last) =>
        .ok { s with heap, handle := put s.handle h none, pc := if last then put s.pc t (.free p none) else s.pc } (some (.destroy h))
    | none => .blocked
  else .blocked

/-- models: adobe/copy_on_write.hpp:159-166 `write`: the test of the count.  `v` is what the client will store. -/
def write (s : St V) (t h : Nat) (v : V) : Out V :=
  if (s.pc t).isIdle = true ∧ s.owns t h then
    match s.handle h with
    | some (some p) => match s.heap p with
      | none => .error
      | some b => .ok { s with pc := put s.pc t (if b.isOne then .store h v else .clone h v) } none
    | _ => .blocked
  else .blocked

/-- models: adobe/copy_on_write.hpp:136-145 `operator=(T x)`: up to the test of the count. -/
def assign (s : St V) (t h : Nat) (v : V) (q : Nat) : Out V :=
  if (s.pc t).isIdle = true ∧ s.owns t h then
    match s.handle h with
    | some none =>
      if s.heap q = none then
        .ok { s with heap := put s.heap q (some ⟨1, v⟩), handle := put s.handle h (some (some q)) } (some (.set h v))
      else .blocked
    | some (some p) => match s.heap p with
      | none => .error
      | some b => .ok { s with pc := put s.pc t (if b.isOne then .store h v else .fresh h v) } none
    | none => .blocked
  else .blocked

/-- models: adobe/copy_on_write.hpp:173-176 `read`. -/
def read (s : St V) (t h : Nat) : Out V :=
  if (s.pc t).isIdle = true ∧ s.owns t h then
    match s.handle h with
    | some (some p) => match s.heap p with
      | none => .error
      | some b => .ok s (some (.read h b.value))
    | _ => .blocked
  else .blocked

/-- the values of two handles, when both have one -/
def both (s : St V) (p q : Nat) : Option (V × V) :=
  match s.heap p, s.heap q with
  | some b, some c => some (b.value, c.value)
  | _, _ => none

/-- models: adobe/copy_on_write.hpp:245-247 `operator==`, with 225 `identity` (the two reads are one step). -/
def equal (eq : V → V → Bool) (s : St V) (t a b : Nat) : Out V :=
  if (s.pc t).isIdle = true ∧ s.owns t a ∧ s.owns t b then
    match s.handle a, s.handle b with
    | some x, some y =>
      if x = y then .ok s (some (.equal a b true))
      else match x, y with
        | some p, some q => match both s p q with
          | none => .error
          | some (u, v) => .ok s (some (.equal a b (eq u v)))
        | _, _ => .ok s (some (.equal a b false))
    | _, _ => .blocked
  else .blocked

/-- models: adobe/copy_on_write.hpp:231-233 `operator<`. -/
def less (lt : V → V → Bool) (s : St V) (t a b : Nat) : Out V :=
  if (s.pc t).isIdle = true ∧ s.owns t a ∧ s.owns t b then
    match s.handle a, s.handle b with
    | some x, some y => match y with
      | none => .ok s (some (.less a b false))
      | some q => match x with
        | none => .ok s (some (.less a b true))
        | some p =>
          if p = q then .ok s (some (.less a b false))
          else match both s p q with
            | none => .error
            | some (u, v) => .ok s (some (.less a b (lt u v)))
    | _, _ => .blocked
  else .blocked

/-- models: adobe/copy_on_write.hpp:372-375 `release_default`, which `std::atexit` (369) arranges if there is a default object. -/
def exit (s : St V) (t : Nat) : Out V :=
  if (s.pc t).isIdle = true ∧ s.exited = false then
    match s.dflt with
    | none => .blocked
    | some p => match release s.heap p with
      | none => .error
      | some (heap, last) => .ok { s with heap, exited := true, pc := if last then put s.pc t (.free p none) else s.pc } none
  else .blocked

/-- models: adobe/copy_on_write.hpp, the lines given below: the next step of an operation; `q` is what the allocator returns, if it is asked -/
def cont (s : St V) (t q : Nat) : Out V :=
  match s.pc t with
  | .idle => .blocked
  -- 163, 259-277: the value is copied into a new block
  | .clone h v => match s.handle h with
    | some (some p) => match s.heap p with
      | none => .error
      | some b =>
        if s.heap q = none then .ok { s with heap := put s.heap q (some ⟨1, b.value⟩), pc := put s.pc t (.reset h q v true) } none
        else .blocked
    | _ => .error
  -- 142, 279-292: the new value is moved into a new block (the allocator is read from the old one)
  | .fresh h v => match s.handle h with
    | some (some p) => match s.heap p with
      | none => .error
      | some _ =>
        if s.heap q = none then .ok { s with heap := put s.heap q (some ⟨1, v⟩), pc := put s.pc t (.reset h q v false) } none
        else .blocked
    | _ => .error
  -- 314-317 `reset`
  | .reset h q v st => match s.handle h with
    | some (some p) => match release s.heap p with
      | none => .error
      | some (heap, last) =>
        .ok { s with heap, handle := put s.handle h (some (some q)),
                     pc := put s.pc t (if last then .free p (if st then some (h, v) else none) else if st then .store h v else .idle) }
          (if st then none else some (.set h v))
    | _ => .error
  -- 307-311
  | .free p k => match s.heap p with
    | none => .error
    | some _ => .ok { s with heap := put s.heap p none,
                             pc := put s.pc t (match k with
                               | some (h, v) => .store h v
                               | none => .idle) } none
  -- 140, 165
  | .store h v => match s.handle h with
    | some (some p) => match s.heap p with
      | none => .error
      | some b => .ok { s with heap := put s.heap p (some { b with value := v }), pc := put s.pc t .idle } (some (.set h v))
    | _ => .error

/-- models: adobe/copy_on_write.hpp: copying the value or allocating throws (269-274, 284-289): nothing has changed -/
def throw (s : St V) (t : Nat) : Out V :=
  match s.pc t with
  | .clone _ _ => .ok { s with pc := put s.pc t .idle } none
  | .fresh _ _ => .ok { s with pc := put s.pc t .idle } none
  | _ => .blocked

/-- thread `t` hands the handle over to `t'` -/
def give (s : St V) (t h t' : Nat) : Out V :=
  if (s.pc t).isIdle = true ∧ s.owns t h then .ok { s with owner := put s.owner h t' } none else .blocked

def step (eq lt : V → V → Bool) (v0 : V) (s : St V) : Act V → Out V
  | .construct t h v q => construct s t h v q
  | .initDefault t q => initDefault v0 s t q
  | .dflt t h => dfltConstruct s t h
  | .copy t d src => copy s t d src
  | .move t d src => move s t d src
  | .swap t a b => swap s t a b
  | .destroy t h => destroy s t h
  | .write t h v => write s t h v
  | .assign t h v q => assign s t h v q
  | .read t h => read s t h
  | .equal t a b => equal eq s t a b
  | .less t a b => less lt s t a b
  | .give t h t' => give s t h t'
  | .exit t => exit s t
  | .cont t q => cont s t q
  | .throw t => throw s t

/-- an execution: steps that cannot be taken are skipped -/
inductive Run (V : Type) where
  | error
  | ok (s : St V) (es : List (Spec.Ev V))

def run (eq lt : V → V → Bool) (v0 : V) : St V → List (Act V) → Run V
  | s, [] => .ok s []
  | s, a :: as => match step eq lt v0 s a with
    | .blocked => run eq lt v0 s as
    | .error => .error
    | .ok s e => match run eq lt v0 s as with
      | .error => .error
      | .ok s es => .ok s (e.toList ++ es)

end Verif.Cow
