/-!
Model of `adobe/task.hpp`: `cancel_state`, the state that a `cancellation_token_source` and its tokens share.

Each call of an operation is a thread with its own number; a step is a section under the lock, the start or the end of a
callback, or the return of the call.

Simplifications:
* sequential consistency; the unprotected `volatile bool` that `is_canceled` reads is an atomic variable;
* a call made inside of a callback is a thread of its own, so there are more schedules than the code has (no lock is held
  while a callback runs, so the thread that runs it does not influence the others);
* the token `cancellation_token::none()`, which has no state, is not modelled;
* allocation does not fail.
-/
namespace Verif.Cancel

/-- models: adobe/task.hpp:75: a node of the list of callbacks: its address and the number of the call that registered it. -/
structure Node where
  addr : Nat
  fn : Nat
  deriving DecidableEq, Repr

/-- What can be observed (`removed` and the last argument of `threw` are internal). -/
inductive Event
  | /-- call `f` of `register_callback` begins -/ regCalled (f : Nat)
  | /-- … and returns a registration, or null -/ regReturned (f : Nat) (token : Option Nat)
  | cancelCalled (c : Nat)
  | cancelReturned (c : Nat)
  | deregCalled (d : Nat) (token : Nat)
  | deregReturned (d : Nat)
  | askCalled (i : Nat)
  | /-- `is_canceled` returns -/ answered (i : Nat) (b : Bool)
  | /-- the callback registered by call `f` starts, in call `k` -/ started (f k : Nat)
  | finished (f k : Nat)
  | /-- the callback throws; the exception leaves call `k`; `lost` are the callbacks this call would have called next -/
    threw (f k : Nat) (lost : List Nat)
  | /-- internal: call `d` of `deregister_callback` removes the callback of `f` -/ removed (d f : Nat)
  deriving DecidableEq, Repr

/-- The control points of a call. -/
inductive Thread
  | /-- not yet called -/ idle
  | /-- adobe/task.hpp:103, before the lock; `n` is in the temporary list -/ regLock (n : Node)
  | /-- adobe/task.hpp:115, before the call -/ regCall (n : Node)
  | /-- in the callback -/ regRun (n : Node)
  | /-- adobe/task.hpp:116 -/ regRet (token : Option Nat)
  | /-- adobe/task.hpp:82, before the lock -/ cancelLock
  | /-- adobe/task.hpp:88: `old` have been called, `rest` have not -/ cancelNext (old rest : List Node)
  | /-- in the callback of `n` -/ cancelRun (old : List Node) (n : Node) (rest : List Node)
  | /-- adobe/task.hpp:127, before the lock -/ deregLock (token : Nat)
  | deregRet
  | /-- adobe/task.hpp:136 -/ askRead
  | askRet (b : Bool)
  | done
  deriving DecidableEq, Repr

/-- The nodes a thread holds in its local list. -/
def Thread.nodes : Thread → List Node
  | .regLock n | .regCall n | .regRun n => [n]
  | .cancelNext old rest => old ++ rest
  | .cancelRun old n rest => old ++ n :: rest
  | _ => []

/-- models: adobe/task.hpp:138-140; `canceled` also tells which call has set it. -/
structure Shared where
  canceled : Option Nat := none
  list : List Node := []
  deriving DecidableEq, Repr

structure State where
  shared : Shared := {}
  /-- by number of the call -/
  threads : Nat → Thread := fun _ => .idle
  /-- number of the next call -/
  next : Nat := 0
  trace : List Event := []

/-- The steps of call `k`. -/
inductive Local (k : Nat) : Shared → Thread → List Event → Shared → Thread → Prop
  /- models: adobe/task.hpp:79-90 (`cancel`) -/
  | cancelFirst (s) : s.canceled = none → Local k s .cancelLock [] { canceled := some k, list := [] } (.cancelNext [] s.list)
  | cancelAgain (s) : s.canceled ≠ none → Local k s .cancelLock [] s (.cancelNext [] [])
  | cancelStart (s old n rest) : Local k s (.cancelNext old (n :: rest)) [.started n.fn k] s (.cancelRun old n rest)
  | cancelFinish (s old n rest) : Local k s (.cancelRun old n rest) [.finished n.fn k] s (.cancelNext (old ++ [n]) rest)
  | cancelThrow (s old n rest) : Local k s (.cancelRun old n rest) [.threw n.fn k (rest.map Node.fn)] s .done
  | cancelRet (s old) : Local k s (.cancelNext old []) [.cancelReturned k] s .done
  /- models: adobe/task.hpp:92-117 (`register_callback`): the new node goes to the front of the list, the result is the
  address of the last node -/
  | regIn (s n) : s.canceled = none → Local k s (.regLock n) []
      { s with list := n :: s.list } (.regRet (some ((n :: s.list).getLast (by simp)).addr))
  | regOut (s n) : s.canceled ≠ none → Local k s (.regLock n) [] s (.regCall n)
  | regStart (s n) : Local k s (.regCall n) [.started n.fn k] s (.regRun n)
  | regFinish (s n) : Local k s (.regRun n) [.finished n.fn k] s (.regRet none)
  | regThrow (s n) : Local k s (.regRun n) [.threw n.fn k []] s .done
  | regRet (s t) : Local k s (.regRet t) [.regReturned k t] s .done
  /- models: adobe/task.hpp:119-134 (`deregister_callback`): the first node with this address -/
  | deregFound (s t l n r) : s.list = l ++ n :: r → n.addr = t → (∀ m ∈ l, m.addr ≠ t) →
      Local k s (.deregLock t) [.removed k n.fn] { s with list := l ++ r } .deregRet
  | deregNone (s t) : (∀ m ∈ s.list, m.addr ≠ t) → Local k s (.deregLock t) [] s .deregRet
  | deregRet (s) : Local k s .deregRet [.deregReturned k] s .done
  /- models: adobe/task.hpp:136 (`is_canceled`) -/
  | askRead (s) : Local k s .askRead [] s (.askRet s.canceled.isSome)
  | askRet (s b) : Local k s (.askRet b) [.answered k b] s .done

/-- What a user can call: models adobe/task.hpp:148-167 and 189 (`cancellation_token`, `cancellation_token_source`);
`register` with the address of its node. -/
inductive Call
  | register (addr : Nat)
  | cancel
  | deregister (token : Nat)
  | ask

def Call.thread (k : Nat) : Call → Thread
  | .register a => .regLock ⟨a, k⟩
  | .cancel => .cancelLock
  | .deregister t => .deregLock t
  | .ask => .askRead

def Call.event (k : Nat) : Call → Event
  | .register _ => .regCalled k
  | .cancel => .cancelCalled k
  | .deregister t => .deregCalled k t
  | .ask => .askCalled k

/-- A new node does not have the address of one that exists. -/
def Call.valid (s : State) : Call → Prop
  | .register a => (∀ n ∈ s.shared.list, n.addr ≠ a) ∧ ∀ k, ∀ n ∈ (s.threads k).nodes, n.addr ≠ a
  | _ => True

def State.setThread (s : State) (k : Nat) (th : Thread) : Nat → Thread := fun i => if i = k then th else s.threads i

inductive Step : State → State → Prop
  | call (s : State) (c : Call) : c.valid s →
      Step s { s with threads := s.setThread s.next (c.thread s.next), next := s.next + 1, trace := s.trace ++ [c.event s.next] }
  | thread (s : State) (k th es sh th') : s.threads k = th → Local k s.shared th es sh th' →
      Step s { s with shared := sh, threads := s.setThread k th', trace := s.trace ++ es }

inductive Steps : State → State → Prop
  | refl (s) : Steps s s
  | step {s t u} : Steps s t → Step t u → Steps s u

/-- models: adobe/task.hpp:77, 187 -/
def initial : State := {}

def Reachable (s : State) : Prop := Steps initial s

end Verif.Cancel
