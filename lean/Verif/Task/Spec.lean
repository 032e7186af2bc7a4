import Verif.Task.Model
/-! What is said about the history of calls and tasks: definitions over the sequence of events only. -/
namespace Verif.Task

def Event.isCall (j : Job) : Event → Bool
  | .called j' _ => j' == j
  | _ => false

def Event.isStart (j : Job) : Event → Bool
  | .started j' _ => j' == j
  | _ => false

def Event.isFinish (j : Job) : Event → Bool
  | .finished j' => j' == j
  | _ => false

/-- How often a task was submitted, started and finished. -/
def calls (j : Job) (tr : List Event) : Nat := tr.countP (Event.isCall j)
def starts (j : Job) (tr : List Event) : Nat := tr.countP (Event.isStart j)
def finishes (j : Job) (tr : List Event) : Nat := tr.countP (Event.isFinish j)

/-- The start or the end of a task. -/
inductive Run
  | start (j : Job)
  | finish (j : Job)
  deriving DecidableEq, Repr

def Event.run (q : Nat) : Event → Option Run
  | .started j _ => if j.queue = some q then some (.start j) else none
  | .finished j => if j.queue = some q then some (.finish j) else none
  | _ => none

/-- The starts and ends of the tasks of queue `q`, in the order in which they happen. -/
def runs (q : Nat) (tr : List Event) : List Run := tr.filterMap (Event.run q)

/-- Tasks that run one after the other. -/
def sequential (js : List Job) : List Run := js.flatMap fun j => [.start j, .finish j]

def Event.take (q : Nat) : Event → Option Job
  | .accepted j => if j.queue = some q then some j else none
  | _ => none

/-- The tasks of queue `q` in the order in which the queue took them. -/
def taken (q : Nat) (tr : List Event) : List Job := tr.filterMap (Event.take q)

/-- The library and the tasks have nothing left to do: no thread can go on. -/
def Stuck (s : State) : Prop := ∀ t, ¬ Internal s t

/-- The library has nothing left to do: a thread can only go on when the user code it runs ends. -/
def Resting (s : State) : Prop := ∀ t, Internal s t → ∃ j, t.trace = s.trace ++ [.finished j]

/-- A call of `suspend` has returned and no call of `resume` has begun since. -/
def SuspendedAt (q : Nat) (tr : List Event) : Prop :=
  ∃ t1 t2, tr = t1 ++ .suspended q :: t2 ∧ .resumeCalled q ∉ t2

/-- `k` steps of the library and the tasks. -/
inductive Run.Steps : Nat → State → State → Prop
  | refl (s) : Run.Steps 0 s s
  | step {k s t u} : Internal s t → Run.Steps k t u → Run.Steps (k + 1) s u

/-- Starts of tasks of queue `q`. -/
def Event.startsOn (q : Nat) : Event → Bool
  | .started j _ => j.queue == some q
  | _ => false

/-- The call of `async`, `suspend` or `resume` begins. -/
def Event.begins (k : Ret) : Event → Bool
  | .called j _ => k == .async j
  | .suspendCalled q => k == .suspend q
  | .resumeCalled q => k == .resume q
  | _ => false

/-- It returns. -/
def Event.ends (k : Ret) : Event → Bool
  | .returned j => k == .async j
  | .suspended q => k == .suspend q
  | .resumed q => k == .resume q
  | _ => false

/-- No call of `suspend` or `resume` for this queue is in progress. -/
def CallsDone (q : Nat) (tr : List Event) : Prop :=
  tr.countP (Event.begins (.suspend q)) = tr.countP (Event.ends (.suspend q)) ∧
  tr.countP (Event.begins (.resume q)) = tr.countP (Event.ends (.resume q))

end Verif.Task
