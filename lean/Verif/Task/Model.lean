/-!
Model of `adobe/future.hpp` and `source/future.cpp`: the thread pool behind `adobe::async`, the timed queue behind
`adobe::async(when, …)`, and `shared_task_queue`.

The state consists of what the mutexes protect and of the control points of all threads.  A step is what one thread does
between two points at which other threads can interfere: a section under a lock, a notification, the start or the end of
user code.

Simplifications:
* sequential consistency; all shared variables are accessed under a lock;
* a call made by user code inside of a task is a thread of its own, so there are more schedules than the code has;
* the static objects `pool_s` and `queue_s` exist from the beginning; their destruction at the end of the process
  (which never ends, source/future.cpp:37-45) is not modelled;
* `std::packaged_task` catches what user code throws, therefore a task that throws is one that finishes; `std::future`,
  allocation and the lifetime of `task_queue_` (held by every task of the queue) are not modelled;
* arguments of `async` are part of the task.
-/
namespace Verif.Task

/-- models: adobe/future.hpp:28-57 (`any_packaged_task_`) and 147-158 (`move_binder_`): the task of one call; `queue` is
the task queue a `move_binder_` refers to. -/
structure Job where
  id : Nat
  queue : Option Nat
  deriving DecidableEq, Repr

/-- What can be observed from outside (`accepted` is internal: the task queue took the task, under its lock). -/
inductive Event
  | called (j : Job) (due : Option Nat)
  | returned (j : Job)
  | accepted (j : Job)
  | started (j : Job) (now : Nat)
  | finished (j : Job)
  | suspendCalled (q : Nat)
  | suspended (q : Nat)
  | resumeCalled (q : Nat)
  | resumed (q : Nat)
  deriving DecidableEq, Repr

/-- Which call returns. -/
inductive Ret
  | async (j : Job)
  | suspend (q : Nat)
  | resume (q : Nat)
  deriving DecidableEq, Repr

def Ret.event : Ret → Event
  | .async j => .returned j
  | .suspend q => .suspended q
  | .resume q => .resumed q

/-- Where a thread continues after it has given a task to the thread pool. -/
inductive Home
  | /-- a call, which will return -/ client (k : Ret)
  | worker
  | sched
  deriving DecidableEq, Repr

/-- The control points. -/
inductive Thread
  | /-- not in a call -/ done
  | /-- a call is about to return -/ ret (k : Ret)
  | /-- source/future.cpp:62-66, before the lock -/ poolPush (j : Job) (h : Home)
  | /-- source/future.cpp:71 -/ poolNotify (h : Home)
  | /-- source/future.cpp:51-53 -/ poolCheck
  | /-- source/future.cpp:54, in `wait` -/ poolSleep
  | /-- source/future.cpp:58 -/ poolCall (j : Job)
  | /-- user code -/ poolRun (j : Job)
  | /-- adobe/future.hpp:153, before the lock of `_continue` -/ poolAfter (q : Nat)
  | /-- source/future.cpp:121, before the lock -/ timedPush (t : Nat) (j : Job)
  | /-- source/future.cpp:126 -/ timedNotify (j : Job)
  | /-- source/future.cpp:102-107 -/ timedCheck
  | /-- source/future.cpp:106, in `wait` -/ timedSleep
  | /-- source/future.cpp:109, in `wait_until` -/ timedWait (t : Nat)
  | /-- source/future.cpp:216, before the lock -/ serialAsync (q : Nat) (j : Job)
  | /-- source/future.cpp:174, before the lock -/ serialSuspend (q : Nat)
  | /-- source/future.cpp:182, before the lock -/ serialResume (q : Nat)
  deriving DecidableEq, Repr

/-- models: source/future.cpp:170-232 (`shared_task_queue::task_queue_`). -/
structure Serial where
  q : List Job := []
  suspend : Bool := false
  executing : Bool := false
  deriving DecidableEq, Repr

/-- What the locks protect, and the clock. -/
structure Shared where
  now : Nat := 0
  /-- source/future.cpp:74 -/
  pool : List Job := []
  /-- source/future.cpp:129; a heap, of which only the set of elements is modelled -/
  timed : List (Nat × Job) := []
  serial : List Serial := []
  deriving Repr

structure State where
  shared : Shared := {}
  threads : List Thread
  /-- number of the next task -/
  next : Nat := 0
  trace : List Event := []

def Home.thread : Home → Thread
  | .client k => .ret k
  | .worker => .poolCheck
  | .sched => .timedCheck

def Shared.setSerial (s : Shared) (q : Nat) (x : Serial) : Shared := { s with serial := s.serial.set q x }

/-- The steps of a single thread. -/
inductive Local : Shared → Thread → List Event → Shared → Thread → Prop
  /- the end of a call -/
  | ret (s k) : Local s (.ret k) [k.event] s .done
  /- models: source/future.cpp:62-69 (`thread_pool::async`) -/
  | poolPush (s j h) : Local s (.poolPush j h) [] { s with pool := s.pool ++ [j] } (.poolNotify h)
  /- models: source/future.cpp:47-56 (`thread_pool::_run`) -/
  | poolTake (s j js) : s.pool = j :: js → Local s .poolCheck [] { s with pool := js } (.poolCall j)
  | poolEmpty (s) : s.pool = [] → Local s .poolCheck [] s .poolSleep
  /- models: source/future.cpp:58 -/
  | poolCall (s j) : Local s (.poolCall j) [.started j s.now] s (.poolRun j)
  /- user code ends; models: source/future.cpp:58 and adobe/future.hpp:151-153 -/
  | poolDone (s j) : j.queue = none → Local s (.poolRun j) [.finished j] s .poolCheck
  | poolAfter (s j q) : j.queue = some q → Local s (.poolRun j) [.finished j] s (.poolAfter q)
  /- models: source/future.cpp:197-210 (`_continue`) -/
  | continueNext (s q x j js) : s.serial[q]? = some x → x.suspend = false → x.q = j :: js →
      Local s (.poolAfter q) [] (s.setSerial q { x with q := js }) (.poolPush j .worker)
  | continueStop (s q x) : s.serial[q]? = some x → (x.suspend = true ∨ x.q = []) →
      Local s (.poolAfter q) [] (s.setSerial q { x with executing := false }) .poolCheck
  /- models: source/future.cpp:120-125 (`timed_queue::async`) -/
  | timedPush (s t j) : Local s (.timedPush t j) [] { s with timed := (t, j) :: s.timed } (.timedNotify j)
  /- models: source/future.cpp:99-118 (`timed_queue::_run`); after `wait_until` the code does not look at `q_.empty()`
  again, which is false there because nobody else removes elements -/
  | timedEmpty (s) : s.timed = [] → Local s .timedCheck [] s .timedSleep
  | timedEarly (s t j) : (t, j) ∈ s.timed → (∀ e ∈ s.timed, t ≤ e.1) → s.now < t → Local s .timedCheck [] s (.timedWait t)
  | timedTake (s t j l r) : s.timed = l ++ (t, j) :: r → (∀ e ∈ s.timed, t ≤ e.1) → t ≤ s.now →
      Local s .timedCheck [] { s with timed := l ++ r } (.poolPush j .sched)
  | timedTimeout (s t) : t ≤ s.now → Local s (.timedWait t) [] s .timedCheck
  /- models: source/future.cpp:212-226 (`task_queue_::async`) -/
  | serialNow (s q x j) : s.serial[q]? = some x → x.executing = false → x.suspend = false →
      Local s (.serialAsync q j) [.accepted j] (s.setSerial q { x with executing := true }) (.poolPush j (.client (.async j)))
  | serialLater (s q x j) : s.serial[q]? = some x → (x.executing = true ∨ x.suspend = true) →
      Local s (.serialAsync q j) [.accepted j] (s.setSerial q { x with q := x.q ++ [j] }) (.ret (.async j))
  /- models: source/future.cpp:174-177 (`_suspend`) -/
  | suspend (s q x) : s.serial[q]? = some x →
      Local s (.serialSuspend q) [] (s.setSerial q { x with suspend := true }) (.ret (.suspend q))
  /- models: source/future.cpp:179-195 (`_resume`) -/
  | resumeNot (s q x) : s.serial[q]? = some x → x.suspend = false →
      Local s (.serialResume q) [] s (.ret (.resume q))
  | resumeOnly (s q x) : s.serial[q]? = some x → x.suspend = true → (x.executing = true ∨ x.q = []) →
      Local s (.serialResume q) [] (s.setSerial q { x with suspend := false }) (.ret (.resume q))
  | resumeNext (s q x j js) : s.serial[q]? = some x → x.suspend = true → x.executing = false → x.q = j :: js →
      Local s (.serialResume q) [] (s.setSerial q { q := js, suspend := false, executing := true })
        (.poolPush j (.client (.resume q)))

/-- What a user can call: models adobe/future.hpp:66-79 and 83-97 (`async`), 169-187 (`shared_task_queue`). -/
inductive Call
  | async
  | asyncAt (t : Nat)
  | asyncOn (q : Nat)
  | suspend (q : Nat)
  | resume (q : Nat)

def Call.thread (id : Nat) : Call → Thread
  | .async => .poolPush ⟨id, none⟩ (.client (.async ⟨id, none⟩))
  | .asyncAt t => .timedPush t ⟨id, none⟩
  | .asyncOn q => .serialAsync q ⟨id, some q⟩
  | .suspend q => .serialSuspend q
  | .resume q => .serialResume q

def Call.event (id : Nat) : Call → Event
  | .async => .called ⟨id, none⟩ none
  | .asyncAt t => .called ⟨id, none⟩ (some t)
  | .asyncOn q => .called ⟨id, some q⟩ none
  | .suspend q => .suspendCalled q
  | .resume q => .resumeCalled q

/-- The task queue a call refers to exists. -/
def Call.valid (s : Shared) : Call → Prop
  | .asyncOn q | .suspend q | .resume q => q < s.serial.length
  | _ => True

/-- What `notify_one` wakes. -/
inductive Wakes (asleep : Thread → Prop) (awake : Thread) : List Thread → List Thread → Prop
  | one (l th r) : asleep th → Wakes asleep awake (l ++ th :: r) (l ++ awake :: r)
  | none (l) : (∀ th ∈ l, ¬ asleep th) → Wakes asleep awake l l

/-- The scheduler sleeps on its condition variable, with or without a time limit. -/
def Thread.timedAsleep : Thread → Prop
  | .timedSleep | .timedWait _ => True
  | _ => False

/-- The steps of the library and of the tasks, without calls from outside. -/
inductive Internal : State → State → Prop
  | thread (s : State) (l th r es sh th') : s.threads = l ++ th :: r → Local s.shared th es sh th' →
      Internal s { s with shared := sh, threads := l ++ th' :: r, trace := s.trace ++ es }
  /- models: source/future.cpp:71 -/
  | poolNotify (s : State) (l h r ts) : s.threads = l ++ .poolNotify h :: r →
      Wakes (· = .poolSleep) .poolCheck (l ++ h.thread :: r) ts → Internal s { s with threads := ts }
  /- models: source/future.cpp:126 -/
  | timedNotify (s : State) (l j r ts) : s.threads = l ++ .timedNotify j :: r →
      Wakes Thread.timedAsleep .timedCheck (l ++ .ret (.async j) :: r) ts → Internal s { s with threads := ts }

/-- The steps of the environment. -/
inductive External : State → State → Prop
  | call (s : State) (c : Call) : c.valid s.shared → External s
      { s with threads := s.threads ++ [c.thread s.next], next := s.next + 1, trace := s.trace ++ [c.event s.next] }
  /- models: source/future.cpp:234-236 (`make_task_queue_`) -/
  | newQueue (s : State) : External s { s with shared := { s.shared with serial := s.shared.serial ++ [{}] } }
  | tick (s : State) (t : Nat) : s.shared.now ≤ t → External s { s with shared := { s.shared with now := t } }
  /- a condition variable may wake its threads at any time -/
  | spuriousPool (s : State) (l r) : s.threads = l ++ .poolSleep :: r → External s { s with threads := l ++ .poolCheck :: r }
  | spuriousTimed (s : State) (l th r) : s.threads = l ++ th :: r → th.timedAsleep →
      External s { s with threads := l ++ .timedCheck :: r }

def Step (s t : State) : Prop := Internal s t ∨ External s t

/-- models: source/future.cpp:31-35, 93-95: as many pool threads as the hardware suggests, and the scheduler. -/
def initial (workers : Nat) : State := { threads := List.replicate workers .poolCheck ++ [.timedCheck] }

inductive Steps : State → State → Prop
  | refl (s) : Steps s s
  | step {s t u} : Steps s t → Step t u → Steps s u

def Reachable (workers : Nat) (s : State) : Prop := Steps (initial workers) s

end Verif.Task
