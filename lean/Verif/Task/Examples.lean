import Verif.Task.Props
/-! Histories that meet the conditions of the theorems, and two the code does not handle as one might expect. -/
namespace Verif.Task

/-- One step of a thread, as a function. -/
def stepThread (s : Shared) : Thread → Option (List Event × Shared × Thread)
  | .ret k => some ([k.event], s, .done)
  | .poolPush j h => some ([], { s with pool := s.pool ++ [j] }, .poolNotify h)
  | .poolCheck =>
    match s.pool with
    | [] => some ([], s, .poolSleep)
    | j :: js => some ([], { s with pool := js }, .poolCall j)
  | .poolCall j => some ([.started j s.now], s, .poolRun j)
  | .poolRun j =>
    match j.queue with
    | none => some ([.finished j], s, .poolCheck)
    | some q => some ([.finished j], s, .poolAfter q)
  | .poolAfter q =>
    match s.serial[q]? with
    | none => none
    | some x =>
      match x.suspend, x.q with
      | false, j :: js => some ([], s.setSerial q { x with q := js }, .poolPush j .worker)
      | _, _ => some ([], s.setSerial q { x with executing := false }, .poolCheck)
  | .timedPush t j => some ([], { s with timed := (t, j) :: s.timed }, .timedNotify j)
  | .timedCheck =>
    match s.timed with
    | [] => some ([], s, .timedSleep)
    | [(t, j)] => if t ≤ s.now then some ([], { s with timed := [] }, .poolPush j .sched) else some ([], s, .timedWait t)
    | _ => none
  | .timedWait t => if t ≤ s.now then some ([], s, .timedCheck) else none
  | .serialAsync q j =>
    match s.serial[q]? with
    | none => none
    | some x =>
      if x.executing || x.suspend then some ([.accepted j], s.setSerial q { x with q := x.q ++ [j] }, .ret (.async j))
      else some ([.accepted j], s.setSerial q { x with executing := true }, .poolPush j (.client (.async j)))
  | .serialSuspend q =>
    match s.serial[q]? with
    | none => none
    | some x => some ([], s.setSerial q { x with suspend := true }, .ret (.suspend q))
  | .serialResume q =>
    match s.serial[q]? with
    | none => none
    | some x =>
      match x.suspend, x.executing, x.q with
      | false, _, _ => some ([], s, .ret (.resume q))
      | true, false, j :: js => some ([], s.setSerial q { q := js, suspend := false, executing := true }, .poolPush j (.client (.resume q)))
      | true, _, _ => some ([], s.setSerial q { x with suspend := false }, .ret (.resume q))
  | _ => none

theorem stepThread_local {s th es s' th'} (h : stepThread s th = some (es, s', th')) : Local s th es s' th' := by
  unfold stepThread at h
  split at h
  · simp at h; obtain ⟨rfl, rfl, rfl⟩ := h; exact .ret _ _
  · simp at h; obtain ⟨rfl, rfl, rfl⟩ := h; exact .poolPush _ _ _
  · split at h
    · next hp => simp at h; obtain ⟨rfl, rfl, rfl⟩ := h; exact .poolEmpty _ hp
    · next hp => simp at h; obtain ⟨rfl, rfl, rfl⟩ := h; exact .poolTake _ _ _ hp
  · simp at h; obtain ⟨rfl, rfl, rfl⟩ := h; exact .poolCall _ _
  · split at h
    · next hp => simp at h; obtain ⟨rfl, rfl, rfl⟩ := h; exact .poolDone _ _ hp
    · next hp => simp at h; obtain ⟨rfl, rfl, rfl⟩ := h; exact .poolAfter _ _ _ hp
  · split at h
    · simp at h
    · next x hx =>
      split at h
      · next h1 h2 => simp at h; obtain ⟨rfl, rfl, rfl⟩ := h; exact .continueNext _ _ _ _ _ hx h1 h2
      · next h1 =>
        simp at h; obtain ⟨rfl, rfl, rfl⟩ := h
        refine .continueStop _ _ _ hx ?_
        cases e1 : x.suspend with
        | true => exact .inl rfl
        | false =>
          right
          cases e2 : x.q with
          | nil => rfl
          | cons j js => exact absurd e2 (h1 j js e1)
  · simp at h; obtain ⟨rfl, rfl, rfl⟩ := h; exact .timedPush _ _ _
  · split at h
    · next hp => simp at h; obtain ⟨rfl, rfl, rfl⟩ := h; exact .timedEmpty _ hp
    · next t j hp =>
      split at h
      · next h1 =>
        simp at h; obtain ⟨rfl, rfl, rfl⟩ := h
        exact .timedTake _ t j [] [] hp (by simp [hp]) h1
      · next h1 =>
        simp at h; obtain ⟨rfl, rfl, rfl⟩ := h
        exact .timedEarly _ t j (by simp [hp]) (by simp [hp]) (by omega)
    · simp at h
  · split at h
    · next h1 => simp at h; obtain ⟨rfl, rfl, rfl⟩ := h; exact .timedTimeout _ _ h1
    · simp at h
  · split at h
    · simp at h
    · next x hx =>
      split at h
      · next h1 =>
        simp at h h1; obtain ⟨rfl, rfl, rfl⟩ := h
        exact .serialLater _ _ _ _ hx h1
      · next h1 =>
        simp at h h1; obtain ⟨rfl, rfl, rfl⟩ := h
        exact .serialNow _ _ _ _ hx h1.1 h1.2
  · split at h
    · simp at h
    · next x hx => simp at h; obtain ⟨rfl, rfl, rfl⟩ := h; exact .suspend _ _ _ hx
  · split at h
    · simp at h
    · next x hx =>
      split at h
      · next h1 => simp at h; obtain ⟨rfl, rfl, rfl⟩ := h; exact .resumeNot _ _ _ hx h1
      · next h1 h2 h3 => simp at h; obtain ⟨rfl, rfl, rfl⟩ := h; exact .resumeNext _ _ _ _ _ hx h1 h2 h3
      · next h1 h2 =>
        simp at h; obtain ⟨rfl, rfl, rfl⟩ := h
        refine .resumeOnly _ _ _ hx h1 ?_
        cases e1 : x.executing with
        | true => exact .inl rfl
        | false =>
          right
          cases e2 : x.q with
          | nil => rfl
          | cons j js => exact absurd e2 (h2 j js e1)
  · simp at h

/-- Wakes the first thread that sleeps. -/
def wakeFirst (asleep : Thread → Bool) (awake : Thread) : List Thread → List Thread
  | [] => []
  | t :: ts => if asleep t then awake :: ts else t :: wakeFirst asleep awake ts

theorem wakeFirst_wakes (a : Thread → Bool) (b : Thread) (l : List Thread) :
    (∃ l1 th l2, l = l1 ++ th :: l2 ∧ a th = true ∧ wakeFirst a b l = l1 ++ b :: l2) ∨
    ((∀ th ∈ l, a th = false) ∧ wakeFirst a b l = l) := by
  induction l with
  | nil => right; simp [wakeFirst]
  | cons t ts ih =>
    by_cases h : a t = true
    · left; exact ⟨[], t, ts, rfl, h, by simp [wakeFirst, h]⟩
    · rcases ih with ⟨l1, th, l2, rfl, h1, h2⟩ | ⟨h1, h2⟩
      · left; exact ⟨t :: l1, th, l2, rfl, h1, by simp [wakeFirst, h, h2]⟩
      · right; exact ⟨by simpa [h] using h1, by simp [wakeFirst, h, h2]⟩

theorem wakes_of {a : Thread → Bool} {p : Thread → Prop} {b l} (hp : ∀ t, a t = true ↔ p t) : Wakes p b l (wakeFirst a b l) := by
  rcases wakeFirst_wakes a b l with ⟨l1, th, l2, rfl, h1, h2⟩ | ⟨h1, h2⟩
  · rw [h2]; exact .one _ _ _ ((hp th).mp h1)
  · rw [h2]; exact .none _ (fun th hm hpt => by rw [← hp, h1 th hm] at hpt; simp at hpt)

def isTimedAsleep : Thread → Bool
  | .timedSleep | .timedWait _ => true
  | _ => false

/-- What happens next. -/
inductive Act
  | call (c : Call)
  | run (i : Nat)
  | queue
  | tick (t : Nat)

def act (s : State) : Act → Option State
  | .call c =>
    match c with
    | .asyncOn q | .suspend q | .resume q => if q < s.shared.serial.length then some (go c) else none
    | c => some (go c)
  | .run i =>
    match s.threads[i]? with
    | none => none
    | some (.poolNotify h) => some { s with threads := wakeFirst (· == .poolSleep) .poolCheck (s.threads.take i ++ h.thread :: s.threads.drop (i + 1)) }
    | some (.timedNotify j) => some { s with threads := wakeFirst isTimedAsleep .timedCheck (s.threads.take i ++ .ret (.async j) :: s.threads.drop (i + 1)) }
    | some th =>
      match stepThread s.shared th with
      | none => none
      | some (es, sh, th') => some { s with shared := sh, threads := s.threads.take i ++ th' :: s.threads.drop (i + 1), trace := s.trace ++ es }
  | .queue => some { s with shared := { s.shared with serial := s.shared.serial ++ [{}] } }
  | .tick t => if s.shared.now ≤ t then some { s with shared := { s.shared with now := t } } else none
where
  go (c : Call) : State := { s with threads := s.threads ++ [c.thread s.next], next := s.next + 1, trace := s.trace ++ [c.event s.next] }

theorem act_step {s a t} (h : act s a = some t) : Step s t := by
  cases a with
  | call c =>
    right
    cases c <;> simp [act, act.go] at h
    · subst h; exact .call s .async trivial
    · subst h; exact .call s (.asyncAt _) trivial
    · obtain ⟨h1, rfl⟩ := h; exact .call s (.asyncOn _) h1
    · obtain ⟨h1, rfl⟩ := h; exact .call s (.suspend _) h1
    · obtain ⟨h1, rfl⟩ := h; exact .call s (.resume _) h1
  | queue => right; simp [act] at h; subst h; exact .newQueue s
  | tick t => right; simp [act] at h; obtain ⟨h1, rfl⟩ := h; exact .tick s t h1
  | run i =>
    left
    simp only [act] at h
    have split : ∀ {th}, s.threads[i]? = some th → s.threads = s.threads.take i ++ th :: s.threads.drop (i + 1) := by
      intro th hi
      rw [List.getElem?_eq_some_iff] at hi
      obtain ⟨h1, h2⟩ := hi
      rw [← h2, List.getElem_cons_drop, List.take_append_drop]
    cases hi : s.threads[i]? with
    | none => simp [hi] at h
    | some th =>
      have hsp := split hi
      rw [hi] at h
      split at h
      · simp at h
      · next h' => simp at h' h; subst h' h; exact .poolNotify s _ _ _ _ hsp (wakes_of (by simp))
      · next h' =>
        simp at h' h; subst h' h
        exact .timedNotify s _ _ _ _ hsp (wakes_of (by intro t; cases t <;> simp [isTimedAsleep, Thread.timedAsleep]))
      · next th' _ _ h' =>
        simp at h'; subst h'
        split at h
        · simp at h
        · next es sh th' hst =>
          simp at h; subst h
          exact .thread s _ _ _ _ _ _ hsp (stepThread_local hst)

def acts (s : State) : List Act → Option State
  | [] => some s
  | a :: as => (act s a).bind (acts · as)

theorem acts_steps {s as t} (h : acts s as = some t) : Steps s t := by
  induction as generalizing s with
  | nil => simp [acts] at h; subst h; exact .refl _
  | cons a as ih =>
    simp only [acts, Option.bind_eq_some_iff] at h
    obtain ⟨u, h1, h2⟩ := h
    exact Steps.trans (.step (.refl _) (act_step h1)) (ih h2)

theorem acts_reach {n as} {f : State → Bool} {x : List Event} (hf : (acts (initial n) as).map (fun s => (f s, s.trace)) = some (true, x)) :
    ∃ s, Reachable n s ∧ s.trace = x ∧ f s = true := by
  cases h : acts (initial n) as with
  | none => simp [h] at hf
  | some s =>
    simp [h] at hf
    exact ⟨s, acts_steps h, hf.2, hf.1⟩

/-! ### a history with two pool threads, a task queue, and a task with a time -/

/-- Threads 0 and 1 are the pool, 2 the scheduler; the calls are 3 to 6. -/
def story : List Act :=
  [.run 0, .run 1, .run 2, .queue, .call (.asyncOn 0), .call (.asyncAt 5), .run 3, .run 3, .run 3, .run 3,
   .call (.asyncOn 0), .run 5, .run 5, .run 4, .run 4, .run 4, .run 2, .run 0, .run 0, .run 0,
   .call (.suspend 0), .run 6, .run 6, .run 0, .run 0, .call (.resume 0), .run 7, .run 7, .run 7, .run 7, .run 0, .run 0,
   .tick 6, .run 2, .run 2, .run 2, .run 2, .run 1, .run 1, .run 1, .run 0]

def a0 : Job := ⟨0, some 0⟩
def a1 : Job := ⟨1, none⟩
def a2 : Job := ⟨2, some 0⟩

theorem story_trace : (acts (initial 2) story).map (fun s => s.trace) = some
    [.called a0 none, .called a1 (some 5), .accepted a0, .returned a0, .called a2 none, .accepted a2, .returned a2, .returned a1,
     .started a0 0, .finished a0, .suspendCalled 0, .suspended 0, .resumeCalled 0, .resumed 0,
     .started a2 0, .started a1 6, .finished a1, .finished a2] := by decide +kernel

/-- Threads that wait without a time limit, or not in a call. -/
def asleep : Thread → Bool
  | .done | .poolSleep | .timedSleep => true
  | _ => false

theorem idle_stuck {s : State} (h : s.threads.all asleep = true) : Stuck s := by
  rw [List.all_eq_true] at h
  intro t ht
  cases ht with
  | thread l th r es sh th' hth hl =>
    have := h th (by rw [hth]; simp)
    cases hl <;> simp [asleep] at this
  | poolNotify l hm r ts hth _ => have := h (.poolNotify hm) (by rw [hth]; simp); simp [asleep] at this
  | timedNotify l j r ts hth _ => have := h (.timedNotify j) (by rw [hth]; simp); simp [asleep] at this

theorem acts_some {n as} {f : State → Bool} (hf : (acts (initial n) as).map f = some true) :
    ∃ s, Reachable n s ∧ f s = true := by
  cases h : acts (initial n) as with
  | none => simp [h] at hf
  | some s =>
    simp [h] at hf
    exact ⟨s, acts_steps h, hf⟩

theorem story_reach : ∃ s, Reachable 2 s ∧ s.trace =
    [.called a0 none, .called a1 (some 5), .accepted a0, .returned a0, .called a2 none, .accepted a2, .returned a2, .returned a1,
     .started a0 0, .finished a0, .suspendCalled 0, .suspended 0, .resumeCalled 0, .resumed 0,
     .started a2 0, .started a1 6, .finished a1, .finished a2] := by
  have h := story_trace
  cases h' : acts (initial 2) story with
  | none => simp [h'] at h
  | some s => simp [h'] at h; exact ⟨s, acts_steps h', h⟩

/- C68: all three tasks ran once, the one with a time at 6 -/
example : ∃ s, Reachable 2 s ∧ calls a1 s.trace = 1 ∧ starts a1 s.trace = 1 ∧ finishes a1 s.trace = 1 ∧
    .called a1 (some 5) ∈ s.trace ∧ .started a1 6 ∈ s.trace := by
  obtain ⟨s, h, ht⟩ := story_reach
  refine ⟨s, h, ?_⟩
  rw [ht]; decide

/- C69: `a2` was submitted after the call for `a0` had returned, and it has started -/
example : ∃ s t1 t2 u1 u2, Reachable 2 s ∧ a0.queue = some 0 ∧ a2.queue = some 0 ∧ s.trace = t1 ++ .called a2 none :: t2 ∧
    .returned a0 ∈ t1 ∧ s.trace = u1 ++ .started a2 0 :: u2 ∧ runs 0 s.trace = sequential [a0, a2] := by
  obtain ⟨s, h, ht⟩ := story_reach
  exact ⟨s, [.called a0 none, .called a1 (some 5), .accepted a0, .returned a0], _,
    [.called a0 none, .called a1 (some 5), .accepted a0, .returned a0, .called a2 none, .accepted a2, .returned a2, .returned a1,
     .started a0 0, .finished a0, .suspendCalled 0, .suspended 0, .resumeCalled 0, .resumed 0], _,
    h, rfl, rfl, ht, by decide, ht, by rw [ht]; decide⟩

/-- Two tasks of a queue; `suspend` is called and returns when the first is with the pool and has not started. -/
def pausing : List Act :=
  [.run 0, .run 1, .run 2, .queue, .call (.asyncOn 0), .run 3, .run 3, .run 3, .run 3, .call (.asyncOn 0), .run 4, .run 4,
   .call (.suspend 0), .run 5, .run 5, .run 0, .run 0, .run 0, .run 0, .run 0]

def b1 : Job := ⟨1, some 0⟩

theorem pausing_trace : (acts (initial 2) pausing).map (fun s => (s.threads, s.shared.pool, s.trace)) = some
    ([.poolSleep, .poolSleep, .timedSleep, .done, .done, .done], [],
     [.called a0 none, .accepted a0, .returned a0, .called b1 none, .accepted b1, .returned b1,
      .suspendCalled 0, .suspended 0, .started a0 0, .finished a0]) := by decide +kernel

theorem pausing_reach : ∃ s, Reachable 2 s ∧ Stuck s ∧ s.trace =
     [.called a0 none, .accepted a0, .returned a0, .called b1 none, .accepted b1, .returned b1,
      .suspendCalled 0, .suspended 0, .started a0 0, .finished a0] := by
  have h := pausing_trace
  cases h' : acts (initial 2) pausing with
  | none => simp [h'] at h
  | some s =>
    simp [h'] at h
    refine ⟨s, acts_steps h', ?_, h.2.2⟩
    exact idle_stuck (by rw [h.1]; decide)

/-- C70, the full statement "no task of the queue starts after `suspend` has returned" is false: a task that was already given
to the pool starts.  The conditions of `C70_suspend` hold here. -/
theorem C70_suspend_immediate_violated : ∃ n s q t1 t2 t3, Reachable n s ∧ s.trace = t1 ++ t2 ++ .suspended q :: t3 ∧
    CallsDone q t1 ∧ .resumeCalled q ∉ t2 ∧ .resumeCalled q ∉ t3 ∧ t3.countP (Event.startsOn q) = 1 := by
  obtain ⟨s, h, _, ht⟩ := pausing_reach
  refine ⟨2, s, 0, [.called a0 none, .accepted a0, .returned a0, .called b1 none, .accepted b1, .returned b1],
    [.suspendCalled 0], [.started a0 0, .finished a0], h, ht, ⟨?_, ?_⟩, ?_, ?_, ?_⟩ <;> decide

/- C71: nothing can go on; `a0` has run and `b1` is one of the exceptions -/
example : ∃ s, Reachable 2 s ∧ Stuck s ∧ 1 ≤ calls b1 s.trace ∧ finishes b1 s.trace = 0 ∧ finishes a0 s.trace = 1 ∧
    SuspendedAt 0 s.trace := by
  obtain ⟨s, h, hs, ht⟩ := pausing_reach
  refine ⟨s, h, hs, ?_⟩
  rw [ht]
  refine ⟨by decide, by decide, by decide, [.called a0 none, .accepted a0, .returned a0, .called b1 none, .accepted b1,
    .returned b1, .suspendCalled 0], [.started a0 0, .finished a0], rfl, by decide⟩

/-- Without a thread. -/
def nobody : List Act := [.run 0, .call .async, .run 1, .run 1, .run 1]

theorem nobody_trace : (acts (initial 0) nobody).map (fun s => (s.threads, s.trace)) = some
    ([.timedSleep, .done], [.called ⟨0, none⟩ none, .returned ⟨0, none⟩]) := by decide +kernel

/-- C71 without the condition that the pool has a thread is false.  `std::thread::hardware_concurrency()` may return 0
(source/future.cpp:31-33), then the pool has none and no task ever runs. -/
theorem C71_no_thread_violated : ∃ s j, Reachable 0 s ∧ Stuck s ∧ .called j none ∈ s.trace ∧ .returned j ∈ s.trace ∧
    starts j s.trace = 0 ∧ j.queue = none := by
  have h := nobody_trace
  cases h' : acts (initial 0) nobody with
  | none => simp [h'] at h
  | some s =>
    simp [h'] at h
    refine ⟨s, ⟨0, none⟩, acts_steps h', idle_stuck (by rw [h.1]; decide), ?_⟩
    rw [h.2]; decide

/-- One pool thread, which runs a task while a second task waits. -/
def busy : List Act := [.run 0, .run 1, .call .async, .run 2, .run 2, .run 2, .run 0, .run 0, .call .async, .run 3, .run 3, .run 3]

theorem busy_trace : (acts (initial 1) busy).map (fun s => (s.threads, s.trace)) = some
    ([.poolRun ⟨0, none⟩, .timedSleep, .done, .done],
     [.called ⟨0, none⟩ none, .returned ⟨0, none⟩, .started ⟨0, none⟩ 0, .called a1 none, .returned a1]) := by decide +kernel

/- C71: the library has nothing to do and `a1` waits -/
example : ∃ s, Reachable 1 s ∧ Resting s ∧ a1.queue = none ∧ 1 ≤ calls a1 s.trace ∧ starts a1 s.trace = 0 ∧
    ∀ t, .called a1 (some t) ∈ s.trace → t ≤ s.shared.now := by
  have h := busy_trace
  cases h' : acts (initial 1) busy with
  | none => simp [h'] at h
  | some s =>
    simp [h'] at h
    refine ⟨s, acts_steps h', ?_, rfl, ?_⟩
    · intro t ht
      cases ht with
      | thread l th r es sh th' hth hl =>
        rw [h.1] at hth
        have : th ∈ l ++ th :: r := by simp
        rw [← hth] at this
        simp at this
        rcases this with rfl | rfl | rfl
        · cases hl with
          | poolDone => exact ⟨_, rfl⟩
          | poolAfter _ _ hq => simp at hq
        · cases hl
        · cases hl
      | poolNotify l hm r ts hth _ =>
        have : Thread.poolNotify hm ∈ l ++ .poolNotify hm :: r := by simp
        rw [← hth, h.1] at this; simp at this
      | timedNotify l j r ts hth _ =>
        have : Thread.timedNotify j ∈ l ++ .timedNotify j :: r := by simp
        rw [← hth, h.1] at this; simp at this
    · rw [h.2]
      refine ⟨by decide, by decide, by simp⟩

end Verif.Task
