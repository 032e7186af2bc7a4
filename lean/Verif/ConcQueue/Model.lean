/-!
Model of `adobe::concurrent_queue` (`adobe/future.hpp:101-140`): a `std::list` behind a mutex, used by any number of
threads.

A step is what one call does between two points at which another thread can interfere.  The lock is taken and released by
explicit steps, and the two accesses to `q_` inside `pop` (the test of `empty()` and the `splice`) are steps of their own,
so that mutual exclusion is something to be proved and not something built into the model.

Simplifications: sequential consistency; the mutex never throws; destruction of the queue is not modelled.  A thread is
the sequence of its calls, so a call is identified by a number and any number of calls may be in flight: there are at least
as many schedules as the code has.
-/
namespace Verif.ConcQueue

/-- What is called.  models: adobe/future.hpp:114 (`push`), 128 (`pop`) -/
inductive Op (V : Type) where
  | push (x : V)
  | pop
  deriving DecidableEq, Repr

/-- How a call ends.  `threw`: the list node could not be made (`push`, future.hpp:115-116) or the assignment to `out`
threw (`pop`, future.hpp:137). -/
inductive Resp (V : Type) where
  | pushed
  | popped (x : V)
  | nothing
  | threw
  deriving DecidableEq, Repr

/-- What a client observes: calls and their ends, in the order of time. -/
inductive Event (V : Type) where
  | inv (i : Nat) (op : Op V)
  | res (i : Nat) (r : Resp V)
  deriving DecidableEq, Repr

/-- Control points of a call. -/
inductive PC (V : Type) where
  | /-- not called yet -/ unused
  | /-- `push`: future.hpp:115 -/ pushStart (x : V)
  | /-- `push`: the node is in `tmp`, before the lock, future.hpp:118 -/ pushNode (x : V)
  | /-- `push`: holds the lock, future.hpp:119 -/ pushHeld (x : V)
  | /-- `push`: spliced, still holds the lock -/ pushSpliced
  | /-- `push`: after the lock -/ pushFree
  | /-- `pop`: future.hpp:129-131 -/ popStart
  | /-- `pop`: holds the lock, future.hpp:132 -/ popHeld
  | /-- `pop`: `!q_.empty()` was true, future.hpp:133 -/ popSeen
  | /-- `pop`: holds the lock, all accesses done; content of `tmp` -/ popLocked (tmp : Option V)
  | /-- `pop`: after the lock, future.hpp:135 -/ popFree (tmp : Option V)
  | /-- has returned or thrown -/ done
  | /-- undefined behaviour: `q_.begin()` of an empty list was spliced -/ undefined
  deriving DecidableEq, Repr

/-- models: adobe/future.hpp:105-109 (`q_`, `mutex_`), and the control point of every call. -/
structure State (V : Type) where
  q : List V
  lock : Option Nat
  pc : Nat → PC V

/-- A new queue. -/
def State.init {V : Type} : State V := ⟨[], none, fun _ => .unused⟩

def State.at {V : Type} (s : State V) (i : Nat) (p : PC V) : State V :=
  { s with pc := fun j => if j = i then p else s.pc j }

/-- The actions of a call. -/
inductive Act (V : Type) where
  | call (op : Op V)
  | alloc
  | allocThrows
  | acquire
  | access
  | release
  | finish
  | assignThrows
  deriving DecidableEq, Repr

/-- One step of call `i`; `none` when it cannot make that step now.  The second component is what is observed.
models: adobe/future.hpp:114-122 (`push`) and 128-139 (`pop`) -/
def step {V : Type} (s : State V) (i : Nat) (a : Act V) : Option (State V × Option (Event V)) :=
  match s.pc i, a with
  -- the calls
  | .unused, .call (.push x) => some (s.at i (.pushStart x), some (.inv i (.push x)))
  | .unused, .call .pop => some (s.at i .popStart, some (.inv i .pop))
  -- push, future.hpp:115-116: `queue_t tmp; tmp.push_back(move(x));`
  | .pushStart x, .alloc => some (s.at i (.pushNode x), none)
  | .pushStart _, .allocThrows => some (s.at i .done, some (.res i .threw))
  -- future.hpp:118: `lock_t lock(mutex_);`
  | .pushNode x, .acquire =>
    if s.lock = none then some ({ s with lock := some i }.at i (.pushHeld x), none) else none
  -- future.hpp:119: `q_.splice(q_.end(), tmp);`
  | .pushHeld x, .access => some ({ s with q := s.q ++ [x] }.at i .pushSpliced, none)
  -- future.hpp:120
  | .pushSpliced, .release => some ({ s with lock := none }.at i .pushFree, none)
  | .pushFree, .finish => some (s.at i .done, some (.res i .pushed))
  -- pop, future.hpp:131: `lock_t lock(mutex_);`
  | .popStart, .acquire =>
    if s.lock = none then some ({ s with lock := some i }.at i .popHeld, none) else none
  -- future.hpp:132: `if (!q_.empty())`
  | .popHeld, .access =>
    match s.q with
    | [] => some (s.at i (.popLocked none), none)
    | _ :: _ => some (s.at i .popSeen, none)
  -- future.hpp:133: `tmp.splice(tmp.end(), q_, q_.begin());`
  | .popSeen, .access =>
    match s.q with
    | [] => some (s.at i .undefined, none)
    | x :: r => some ({ s with q := r }.at i (.popLocked (some x)), none)
  -- future.hpp:134
  | .popLocked tmp, .release => some ({ s with lock := none }.at i (.popFree tmp), none)
  -- future.hpp:135-136: `if (tmp.empty()) return false;`
  | .popFree none, .finish => some (s.at i .done, some (.res i .nothing))
  -- future.hpp:137-138: `out = move(tmp.back()); return true;`
  | .popFree (some x), .finish => some (s.at i .done, some (.res i (.popped x)))
  | .popFree (some _), .assignThrows => some (s.at i .done, some (.res i .threw))
  | _, _ => none

/-- `Exec h s`: some interleaving of any calls leads from a new queue to `s`, and the clients have observed `h`. -/
inductive Exec {V : Type} : List (Event V) → State V → Prop where
  | init : Exec [] State.init
  | step {h s i a s' e} : Exec h s → step s i a = some (s', e) → Exec (h ++ e.toList) s'

end Verif.ConcQueue
