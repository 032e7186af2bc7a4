import Verif.Task.Hist
/-! No lost notifications; progress. -/
namespace Verif.Task

/-! ### additive counts over threads -/

def total (f : Thread → Nat) (ts : List Thread) : Nat := (ts.map f).sum
@[simp] theorem total_append (f) (l r : List Thread) : total f (l ++ r) = total f l + total f r := by simp [total]
@[simp] theorem total_cons (f) (t : Thread) (l : List Thread) : total f (t :: l) = f t + total f l := by simp [total]
@[simp] theorem total_nil (f) : total f [] = 0 := rfl

theorem total_pos {f : Thread → Nat} {ts : List Thread} (h : 0 < total f ts) : ∃ t ∈ ts, 0 < f t := by
  induction ts with
  | nil => simp at h
  | cons t ts ih =>
    rcases Nat.eq_zero_or_pos (f t) with h0 | h0
    · simp [h0] at h
      obtain ⟨u, h1, h2⟩ := ih h
      exact ⟨u, by simp [h1], h2⟩
    · exact ⟨t, by simp, h0⟩

theorem total_mem {f : Thread → Nat} {ts : List Thread} {t} (h : t ∈ ts) : f t ≤ total f ts := by
  induction ts with
  | nil => simp at h
  | cons u ts ih =>
    simp at h ⊢
    rcases h with rfl | h
    · omega
    · have := ih h; omega

def sleepers : Thread → Nat
  | .poolSleep => 1
  | _ => 0
def checkers : Thread → Nat
  | .poolCheck => 1
  | _ => 0
def notifiers : Thread → Nat
  | .poolNotify _ => 1
  | _ => 0
/-- The threads of the pool. -/
def workers : Thread → Nat
  | .poolCheck | .poolSleep | .poolCall _ | .poolRun _ | .poolAfter _ | .poolPush _ .worker | .poolNotify .worker => 1
  | _ => 0
/-- The scheduler. -/
def scheds : Thread → Nat
  | .timedCheck | .timedSleep | .timedWait _ | .poolPush _ .sched | .poolNotify .sched => 1
  | _ => 0

theorem wakes_total {a b} {l l' : List Thread} (f : Thread → Nat) (hf : ∀ t, a t → f t = f b) (h : Wakes a b l l') :
    total f l' = total f l := wakes_sum f hf h

theorem local_workers {s th es s' th'} (h : Local s th es s' th') : workers th = workers th' ∧ scheds th = scheds th' := by
  cases h with
  | poolPush j h => cases h <;> simp [workers, scheds]
  | _ => simp [workers, scheds]

theorem census {n s} (h : Reachable n s) : total workers s.threads = n ∧ total scheds s.threads = 1 := by
  refine steps_induction h ?_ ?_ ?_
  · simp [initial, total, workers, scheds]
  · intro s t hr ih h
    cases h with
    | thread l th r es sh th' ht hl =>
      have := local_workers hl
      simp [ht] at ih ⊢; omega
    | poolNotify l h r ts ht hw =>
      have h1 := wakes_total workers (by rintro _ rfl; rfl) hw
      have h2 := wakes_total scheds (by rintro _ rfl; rfl) hw
      have h3 : workers h.thread = workers (.poolNotify h) ∧ scheds h.thread = scheds (.poolNotify h) := by cases h <;> simp [workers, scheds, Home.thread]
      simp [ht] at ih
      simp only [h1, h2]
      simp; omega
    | timedNotify l e r ts ht hw =>
      have h1 := wakes_total workers (by intro t h; cases t <;> simp_all [Thread.timedAsleep, workers]) hw
      have h2 := wakes_total scheds (by intro t h; cases t <;> simp_all [Thread.timedAsleep, scheds]) hw
      simp [ht] at ih
      simp only [h1, h2]
      simpa [workers, scheds] using ih
  · intro s t hr ih h
    cases h with
    | call c hc => cases c <;> simpa [Call.thread, workers, scheds] using ih
    | newQueue => exact ih
    | tick => exact ih
    | spuriousPool l r ht => simpa [ht, workers, scheds] using ih
    | spuriousTimed l th r ht ha =>
      have : workers th = 0 ∧ scheds th = 1 := by cases th <;> simp_all [Thread.timedAsleep, workers, scheds]
      have h2 : workers .timedCheck = 0 ∧ scheds .timedCheck = 1 := ⟨rfl, rfl⟩
      simpa [ht, this, h2] using ih

/-- As long as a thread of the pool sleeps, there is a thread or a notification on its way for each waiting task. -/
theorem pool_awake {n s} (h : Reachable n s) : total sleepers s.threads = 0 ∨
    s.shared.pool.length ≤ total notifiers s.threads + total checkers s.threads := by
  refine steps_induction h ?_ ?_ ?_
  · simp [initial]
  · intro s t hr ih h
    cases h with
    | thread l th r es sh th' ht hl =>
      simp only [ht, total_append, total_cons] at ih ⊢
      cases hl with
      | poolTake j js hp => simp [sleepers, notifiers, checkers, hp] at ih ⊢; omega
      | poolEmpty hp => simp [hp]
      | poolPush j h => simp [sleepers, notifiers, checkers] at ih ⊢; omega
      | poolDone | timedTake => simp [sleepers, notifiers, checkers] at ih ⊢; omega
      | continueStop => simp [sleepers, notifiers, checkers, Shared.setSerial] at ih ⊢; omega
      | _ => simpa [sleepers, notifiers, checkers, Shared.setSerial] using ih
    | poolNotify l h r ts ht hw =>
      generalize heq : l ++ h.thread :: r = L at hw
      cases hw with
      | one l' th r' hth =>
        subst hth
        have e : ∀ f, total f (l' ++ .poolSleep :: r') = total f l + f h.thread + total f r := by
          intro f; rw [← heq]; simp; omega
        have e1 := e sleepers
        have e2 := e notifiers
        have e3 := e checkers
        have e4 : sleepers h.thread = 0 ∧ notifiers h.thread = 0 := by cases h <;> simp [sleepers, notifiers, Home.thread]
        simp [ht, sleepers, notifiers, checkers] at ih e1 e2 e3 ⊢
        simp [sleepers, notifiers] at e4
        omega
      | none _ hno =>
        left
        show total sleepers _ = 0
        by_contra hne
        obtain ⟨t, h1, h2⟩ := total_pos (Nat.pos_of_ne_zero hne)
        refine hno t h1 ?_
        cases t <;> simp_all [sleepers]
    | timedNotify l e r ts ht hw =>
      have f1 := wakes_total sleepers (by intro t h; cases t <;> simp_all [Thread.timedAsleep, sleepers]) hw
      have f2 := wakes_total notifiers (by intro t h; cases t <;> simp_all [Thread.timedAsleep, notifiers]) hw
      have f3 := wakes_total checkers (by intro t h; cases t <;> simp_all [Thread.timedAsleep, checkers]) hw
      simp only [f1, f2, f3]
      simpa [ht, sleepers, notifiers, checkers] using ih
  · intro s t hr ih h
    cases h with
    | call c hc => cases c <;> simpa [Call.thread, sleepers, notifiers, checkers] using ih
    | newQueue => exact ih
    | tick => exact ih
    | spuriousPool l r ht => simp [ht, sleepers, notifiers, checkers] at ih ⊢; omega
    | spuriousTimed l th r ht ha =>
      have : sleepers th = 0 ∧ notifiers th = 0 ∧ checkers th = 0 := by cases th <;> simp_all [Thread.timedAsleep, sleepers, notifiers, checkers]
      simp [ht, this] at ih ⊢
      simpa [sleepers, notifiers, checkers] using ih

/-- The time until which the scheduler sleeps is not later than a waiting task, or a notification is on its way. -/
def Punctual (s : State) : Prop := ∀ th ∈ s.threads, th.timedAsleep →
  (∀ e ∈ s.shared.timed, ∃ t, th = .timedWait t ∧ t ≤ e.1) ∨ ∃ j, .timedNotify j ∈ s.threads

theorem asleep_unique {l r : List Thread} {th c : Thread} (h : total scheds (l ++ th :: r) = 1) (ht : scheds th = 1)
    (hc : c ∈ l ++ r) : ¬ c.timedAsleep := by
  intro ha
  have h1 : scheds c = 1 := by cases c <;> simp_all [Thread.timedAsleep, scheds]
  have h2 := total_mem (f := scheds) hc
  simp at h h2
  omega

theorem punctual {n s} (h : Reachable n s) : Punctual s := by
  refine steps_induction h ?_ ?_ ?_
  · intro th ht ha
    simp [initial] at ht
    rcases ht with ⟨_, rfl⟩ | rfl <;> simp [Thread.timedAsleep] at ha
  · intro s t hr ih h
    have hc := (census hr).2
    cases h with
    | thread l th r es sh th' ht hl =>
      intro c hcm ha
      have hm : c ∈ l ++ r ∨ c = th' := by simp at hcm ⊢; tauto
      rcases hm with hm | rfl
      · have hcs : c ∈ s.threads := by rw [ht]; simp at hm ⊢; tauto
        rcases ih c hcs ha with g | ⟨j, g⟩
        · cases hl with
          | timedPush t j => right; exact ⟨j, by simp⟩
          | timedTake t j l' r' hp =>
            exact absurd ha (asleep_unique (by rw [← ht]; exact hc) rfl hm)
          | _ => exact .inl g
        · right
          refine ⟨j, ?_⟩
          rw [ht] at g
          have : Thread.timedNotify j ≠ th := by rintro rfl; cases hl
          simp [this] at g ⊢; tauto
      · left
        cases hl with
        | timedEmpty hp => simp [hp]
        | timedEarly t j h1 h2 h3 => intro e he; exact ⟨t, rfl, h2 e he⟩
        | _ => simp [Thread.timedAsleep] at ha
    | poolNotify l h r ts ht hw =>
      intro c hcm ha
      have key : c ∈ s.threads := by
        rcases wakes_old hw hcm with hm | rfl
        · have : c ≠ h.thread := by rintro rfl; cases h <;> simp [Home.thread, Thread.timedAsleep] at ha
          rw [ht]; simp [this] at hm ⊢; tauto
        · simp [Thread.timedAsleep] at ha
      rcases ih c key ha with g | ⟨j, g⟩
      · exact .inl g
      · right; refine ⟨j, ?_⟩
        rw [wakes_mem (by simp) (by simp) hw]
        rw [ht] at g
        simp at g ⊢; tauto
    | timedNotify l e r ts ht hw =>
      intro c hcm ha
      exfalso
      generalize heq : l ++ .ret (.async e) :: r = L at hw
      cases hw with
      | one l' th r' hth =>
        have hc' : total scheds (l' ++ th :: r') = 1 := by
          rw [← heq]; rw [ht] at hc; simpa [scheds] using hc
        have h1 : scheds th = 1 := by cases th <;> simp_all [Thread.timedAsleep, scheds]
        have hm : c ∈ l' ++ r' := by
          simp only [List.mem_append, List.mem_cons] at hcm ⊢
          rcases hcm with h | rfl | h
          · exact .inl h
          · simp [Thread.timedAsleep] at ha
          · exact .inr h
        exact asleep_unique hc' h1 hm ha
      | none _ hno => exact hno c hcm ha
  · intro s t hr ih h
    cases h with
    | call c hc =>
      intro th hth ha
      simp only [List.mem_append, List.mem_singleton] at hth
      rcases hth with hth | rfl
      · rcases ih th hth ha with g | ⟨j, g⟩
        · exact .inl g
        · right; exact ⟨j, by simp [g]⟩
      · cases c <;> simp [Call.thread, Thread.timedAsleep] at ha
    | newQueue => exact ih
    | tick => exact ih
    | spuriousPool l r ht =>
      intro th hth ha
      have key : th ∈ s.threads := by
        have : th ≠ .poolCheck := by rintro rfl; simp [Thread.timedAsleep] at ha
        rw [ht]; simp [this] at hth ⊢; tauto
      rcases ih th key ha with g | ⟨j, g⟩
      · exact .inl g
      · right; refine ⟨j, ?_⟩
        rw [ht] at g; simp at g ⊢; exact g
    | spuriousTimed l th r ht ha =>
      intro c hcm hca
      have hm : c ∈ l ++ r := by
        have : c ≠ .timedCheck := by rintro rfl; simp [Thread.timedAsleep] at hca
        simp [this] at hcm ⊢; exact hcm
      have h1 : scheds th = 1 := by cases th <;> simp_all [Thread.timedAsleep, scheds]
      exact absurd hca (asleep_unique (by rw [← ht]; exact (census hr).2) h1 hm)

/-- The times of the waiting tasks are those of their calls. -/
theorem due_called {n s} (h : Reachable n s) : ∀ j t, (.timedPush t j ∈ s.threads ∨ (t, j) ∈ s.shared.timed) →
    .called j (some t) ∈ s.trace := by
  refine steps_induction h ?_ ?_ ?_
  · simp [initial]
  · intro s u hr ih h
    cases h with
    | thread l th r es sh th' ht hl =>
      intro j t hc
      simp only [List.mem_append]
      left
      apply ih j t
      rw [ht]
      simp only [List.mem_append, List.mem_cons] at hc ⊢
      rcases hc with (hc | rfl | hc) | hc
      · simp [hc]
      · cases hl
      · simp [hc]
      · cases hl with
        | timedPush t' k =>
          simp at hc
          rcases hc with ⟨rfl, rfl⟩ | hc
          · simp
          · exact .inr hc
        | timedTake t' k l' r' hp =>
          right
          rw [hp]
          simp at hc ⊢; tauto
        | _ => exact .inr hc
    | poolNotify l h r ts ht hw =>
      intro j t hc
      apply ih j t
      rw [ht]
      rw [wakes_mem (by simp) (by simp) hw] at hc
      have : Thread.timedPush t j ≠ h.thread := by cases h <;> simp [Home.thread]
      simp [this] at hc ⊢; tauto
    | timedNotify l e r ts ht hw =>
      intro j t hc
      apply ih j t
      rw [ht]
      rw [wakes_mem (by simp [Thread.timedAsleep]) (by simp) hw] at hc
      simp at hc ⊢; tauto
  · intro s u _ ih h
    cases h with
    | call c hc =>
      intro j t h
      simp only [List.mem_append, List.mem_singleton] at h ⊢
      rcases h with (h | h) | h
      · exact .inl (ih j t (.inl h))
      · right
        cases c <;> simp [Call.thread] at h
        obtain ⟨rfl, rfl⟩ := h; rfl
      · exact .inl (ih j t (.inr h))
    | newQueue => exact ih
    | tick => exact ih
    | spuriousPool l r ht =>
      intro j t hc
      apply ih j t; rw [ht]; simp at hc ⊢; exact hc
    | spuriousTimed l th r ht ha =>
      intro j t hc
      apply ih j t; rw [ht]; simp at hc ⊢; tauto

/-- The task queue a call in progress is about to lock. -/
def Thread.queue? : Thread → Option Nat
  | .serialAsync q _ | .serialSuspend q | .serialResume q => some q
  | _ => none

/-- The task queues of calls in progress exist. -/
theorem valid_inv {n s} (h : Reachable n s) : ∀ th ∈ s.threads, ∀ q, th.queue? = some q → q < s.shared.serial.length := by
  refine steps_induction h ?_ ?_ ?_
  · intro th ht q hq
    simp [initial] at ht
    rcases ht with ⟨_, rfl⟩ | rfl <;> simp [Thread.queue?] at hq
  · intro s t hr ih h
    cases h with
    | thread l th r es sh th' ht hl =>
      intro c hc q hq
      have hlen : sh.serial.length = s.shared.serial.length := by cases hl <;> simp [Shared.setSerial]
      have hth' : th'.queue? = none := by cases hl <;> rfl
      rw [hlen]
      refine ih c ?_ q hq
      have : c ≠ th' := by rintro rfl; simp [hth'] at hq
      rw [ht]; simp [this] at hc ⊢; tauto
    | poolNotify l h r ts ht hw =>
      intro c hc q hq
      refine ih c ?_ q hq
      rcases wakes_old hw hc with hc | rfl
      · have : c ≠ h.thread := by rintro rfl; cases h <;> simp [Home.thread, Thread.queue?] at hq
        rw [ht]; simp [this] at hc ⊢; tauto
      · simp [Thread.queue?] at hq
    | timedNotify l e r ts ht hw =>
      intro c hc q hq
      refine ih c ?_ q hq
      rcases wakes_old hw hc with hc | rfl
      · have : c ≠ .ret (.async e) := by rintro rfl; simp [Thread.queue?] at hq
        rw [ht]; simp [this] at hc ⊢; tauto
      · simp [Thread.queue?] at hq
  · intro s t hr ih h
    cases h with
    | call c hc =>
      intro th hth q hq
      simp only [List.mem_append, List.mem_singleton] at hth
      rcases hth with hth | rfl
      · exact ih th hth q hq
      · cases c <;> simp [Call.thread, Thread.queue?] at hq <;> subst hq <;> exact hc
    | newQueue => intro th hth q hq; have := ih th hth q hq; simp; omega
    | tick => exact ih
    | spuriousPool l r ht =>
      intro c hc q hq
      refine ih c ?_ q hq
      have : c ≠ .poolCheck := by rintro rfl; simp [Thread.queue?] at hq
      rw [ht]; simp [this] at hc ⊢; tauto
    | spuriousTimed l th r ht ha =>
      intro c hc q hq
      refine ih c ?_ q hq
      have : c ≠ .timedCheck := by rintro rfl; simp [Thread.queue?] at hq
      rw [ht]; simp [this] at hc ⊢; tauto

end Verif.Task
