import Verif.Task.Spec
import Mathlib.Algebra.BigOperators.Group.List.Basic
/-! Each task is in exactly one place. -/
namespace Verif.Task

/-- The tasks a thread holds. -/
def Thread.jobs : Thread → List Job
  | .poolPush j _ | .poolCall j | .poolRun j | .timedPush _ j | .serialAsync _ j => [j]
  | _ => []

def Shared.jobs (s : Shared) : List Job := s.pool ++ s.timed.map Prod.snd ++ (s.serial.map Serial.q).flatten

def heldT (j : Job) (ts : List Thread) : Nat := (ts.map fun t => t.jobs.count j).sum

def heldS (j : Job) (s : Shared) : Nat :=
  s.pool.count j + (s.timed.map Prod.snd).count j + (s.serial.map fun x => x.q.count j).sum

def held (j : Job) (s : State) : Nat := heldT j s.threads + heldS j s.shared

theorem sum_set {α : Type} (f : α → Nat) {l : List α} {q : Nat} {x : α} (h : l[q]? = some x) (y : α) :
    ((l.set q y).map f).sum + f x = (l.map f).sum + f y := by
  induction l generalizing q with
  | nil => simp at h
  | cons a l ih =>
    cases q with
    | zero =>
      simp at h; subst h
      simp; omega
    | succ q =>
      simp at h
      have := ih h
      simp only [List.set_cons_succ, List.map_cons, List.sum_cons]; omega

theorem heldS_setSerial (j : Job) {s : Shared} {q : Nat} {x : Serial} (h : s.serial[q]? = some x) (y : Serial) :
    heldS j (s.setSerial q y) + x.q.count j = heldS j s + y.q.count j := by
  have := sum_set (fun x : Serial => x.q.count j) h y
  simp only [heldS, Shared.setSerial]
  omega

@[simp] theorem heldT_append (j : Job) (l r : List Thread) : heldT j (l ++ r) = heldT j l + heldT j r := by simp [heldT]
@[simp] theorem heldT_cons (j : Job) (t : Thread) (l : List Thread) : heldT j (t :: l) = t.jobs.count j + heldT j l := by simp [heldT]
@[simp] theorem heldT_nil (j : Job) : heldT j [] = 0 := rfl

@[simp] theorem calls_nil (j : Job) : calls j [] = 0 := rfl
@[simp] theorem starts_nil (j : Job) : starts j [] = 0 := rfl
@[simp] theorem finishes_nil (j : Job) : finishes j [] = 0 := rfl
@[simp] theorem calls_append (j : Job) (a b) : calls j (a ++ b) = calls j a + calls j b := by simp [calls]
@[simp] theorem starts_append (j : Job) (a b) : starts j (a ++ b) = starts j a + starts j b := by simp [starts]
@[simp] theorem finishes_append (j : Job) (a b) : finishes j (a ++ b) = finishes j a + finishes j b := by simp [finishes]

theorem local_held (j : Job) {s th es s' th'} (h : Local s th es s' th') :
    th.jobs.count j + heldS j s = th'.jobs.count j + heldS j s' + finishes j es ∧ calls j es = 0 := by
  cases h with
  | ret k => cases k <;> simp [Thread.jobs, finishes, calls, Event.isFinish, Event.isCall, Ret.event]
  | poolPush => simp [Thread.jobs, heldS]; omega
  | poolTake k js hp => simp [Thread.jobs, heldS, hp, List.count_cons]; omega
  | poolEmpty hp => simp [Thread.jobs]
  | poolCall => simp [Thread.jobs, finishes, calls, Event.isFinish, Event.isCall]
  | poolDone => simp [Thread.jobs, finishes, calls, Event.isFinish, Event.isCall, List.count_cons]; omega
  | poolAfter => simp [Thread.jobs, finishes, calls, Event.isFinish, Event.isCall, List.count_cons]; omega
  | continueNext q x k js hq hs hk =>
    have := heldS_setSerial j hq { x with q := js }
    simp [hk, List.count_cons] at this
    simp [Thread.jobs, List.count_cons]; omega
  | continueStop q x hq =>
    have := heldS_setSerial j hq { x with executing := false }
    simp only at this
    simp [Thread.jobs]; omega
  | timedPush => simp [Thread.jobs, heldS, List.count_cons]; omega
  | timedEmpty hp => simp [Thread.jobs]
  | timedEarly => simp [Thread.jobs]
  | timedTake t k l r hp => simp [Thread.jobs, heldS, hp, List.count_cons]; omega
  | timedTimeout => simp [Thread.jobs]
  | serialNow q x k hq =>
    have := heldS_setSerial j hq { x with executing := true }
    simp only at this
    simp [Thread.jobs, finishes, calls, Event.isFinish, Event.isCall]; omega
  | serialLater q x k hq =>
    have := heldS_setSerial j hq { x with q := x.q ++ [k] }
    simp [Thread.jobs, finishes, calls, Event.isFinish, Event.isCall]
    simp at this; omega
  | suspend q x hq =>
    have := heldS_setSerial j hq { x with suspend := true }
    simp only at this
    simp [Thread.jobs]; omega
  | resumeNot => simp [Thread.jobs]
  | resumeOnly q x hq =>
    have := heldS_setSerial j hq { x with suspend := false }
    simp only at this
    simp [Thread.jobs]; omega
  | resumeNext q x k js hq hs he hk =>
    have := heldS_setSerial j hq { q := js, suspend := false, executing := true }
    simp [hk, List.count_cons] at this
    simp [Thread.jobs, List.count_cons]; omega

theorem wakes_sum {a b} {l l' : List Thread} (f : Thread → Nat) (hf : ∀ t, a t → f t = f b) (h : Wakes a b l l') :
    (l'.map f).sum = (l.map f).sum := by
  cases h with
  | one l th r ht => simp [hf th ht]
  | none => rfl

theorem home_jobs (h : Home) : h.thread.jobs = [] := by cases h <;> rfl

theorem internal_held (j : Job) {s t} (h : Internal s t) :
    held j s = held j t + finishes j t.trace - finishes j s.trace ∧ finishes j s.trace ≤ finishes j t.trace ∧
    calls j t.trace = calls j s.trace := by
  cases h with
  | thread l th r es sh th' ht hl =>
    have := local_held j hl
    simp [held, ht]; omega
  | poolNotify l h r ts ht hw =>
    have := wakes_sum (fun t => t.jobs.count j) (by rintro _ rfl; rfl) hw
    simp [held, heldT, this, ht, home_jobs]; simp [Thread.jobs]
  | timedNotify l e r ts ht hw =>
    have := wakes_sum (fun t => t.jobs.count j) (by intro t h; cases t <;> simp_all [Thread.timedAsleep, Thread.jobs]) hw
    simp [held, heldT, this, ht]; simp [Thread.jobs]

@[elab_as_elim]
theorem steps_induction {n} {p : State → Prop} {s} (h : Reachable n s) (h0 : p (initial n))
    (hi : ∀ s t, Reachable n s → p s → Internal s t → p t) (he : ∀ s t, Reachable n s → p s → External s t → p t) :
    p s := by
  have : ∀ a, a = initial n → Steps a s → p s := by
    intro a ha h
    induction h with
    | refl => subst ha; exact h0
    | step h1 h2 ih =>
      subst ha
      rcases h2 with h2 | h2
      · exact hi _ _ h1 (ih h1) h2
      · exact he _ _ h1 (ih h1) h2
  exact this _ rfl h

/-- Each submitted task is in one place until it is finished. -/
theorem conserve {n s} (h : Reachable n s) (j : Job) : held j s + finishes j s.trace = calls j s.trace := by
  refine steps_induction h ?_ ?_ ?_
  · have : heldT j (initial n).threads = 0 := by
      simp [initial, heldT, Thread.jobs]
    simp only [held, this]
    simp [initial, heldS]
  · intro s t _ ih h
    have := internal_held j h
    omega
  · intro s t _ ih h
    cases h with
    | call c hc =>
      simp only [held] at ih
      cases c <;> simp [held, finishes, calls, Event.isFinish, Event.isCall, Thread.jobs, Call.thread, Call.event] at ih ⊢ <;>
        (try simp [List.count_cons]) <;> omega
    | newQueue => simpa [held, heldS] using ih
    | tick => simpa [held, heldS] using ih
    | spuriousPool l r ht => simpa [held, ht, Thread.jobs] using ih
    | spuriousTimed l th r ht ha =>
      have : th.jobs = [] := by cases th <;> simp_all [Thread.timedAsleep, Thread.jobs]
      simpa [held, ht, this, show Thread.timedCheck.jobs = [] from rfl] using ih

/-- The numbers of the tasks are new. -/
theorem fresh {n s} (h : Reachable n s) : (∀ j, s.next ≤ j.id → calls j s.trace = 0) ∧ ∀ j, calls j s.trace ≤ 1 := by
  refine steps_induction h ?_ ?_ ?_
  · simp [initial]
  · intro s t _ ih h
    have : t.next = s.next := by cases h <;> rfl
    rw [this]
    simpa [(internal_held _ h).2.2] using ih
  · intro s t _ ih h
    cases h with
    | call c hc =>
      have key : ∀ j, calls j [c.event s.next] ≤ 1 ∧ (calls j [c.event s.next] = 1 → j.id = s.next) := by
        intro j
        cases c <;> simp [calls, Event.isCall, Call.event, List.countP_cons] <;> (try split) <;> simp_all <;>
          (try (rintro rfl; rfl)) <;> (try (rename_i h; rw [← h]))
      refine ⟨fun j hj => ?_, fun j => ?_⟩
      · have h1 := ih.1 j (by simp at hj; omega)
        have h2 := key j
        simp at hj ⊢
        constructor
        · exact h1
        · by_contra h3
          have := h2.2 (by omega)
          omega
      · have h1 := ih.1 j
        have h2 := key j
        have h3 := ih.2 j
        simp
        by_cases h4 : calls j [c.event s.next] = 1
        · have := h1 (by rw [h2.2 h4]; exact Nat.le_refl _)
          omega
        · omega
    | newQueue => exact ih
    | tick => exact ih
    | spuriousPool l r ht => exact ih
    | spuriousTimed l th r ht ha => exact ih

/-- Running tasks. -/
def runT (j : Job) (ts : List Thread) : Nat := ts.count (.poolRun j)

theorem wakes_count {a b c} {l l' : List Thread} (ha : ¬ a c) (hb : b ≠ c) (h : Wakes a b l l') : l'.count c = l.count c := by
  cases h with
  | one l th r ht =>
    have : th ≠ c := by rintro rfl; exact ha ht
    simp [List.count_cons, this, hb]
  | none => rfl

theorem running {n s} (h : Reachable n s) (j : Job) : starts j s.trace = runT j s.threads + finishes j s.trace := by
  refine steps_induction h ?_ ?_ ?_
  · simp [initial, runT, List.count_replicate]
  · intro s t _ ih h
    cases h with
    | thread l th r es sh th' ht hl =>
      have key : starts j es + runT j [th] = runT j [th'] + finishes j es := by
        cases hl with
        | ret k => cases k <;> simp [runT, starts, finishes, Event.isStart, Event.isFinish, List.count_cons, Ret.event]
        | poolCall k =>
          simp [runT, starts, finishes, Event.isStart, Event.isFinish, List.count_cons, List.countP_cons]
        | _ => simp [runT, starts, finishes, Event.isStart, Event.isFinish, List.count_cons, List.countP_cons]
      simp only [runT, ht, List.count_append, List.count_cons, List.count_nil] at ih key ⊢
      simp only [starts_append, finishes_append]
      omega
    | poolNotify l h r ts ht hw =>
      have := wakes_count (c := .poolRun j) (by simp) (by simp) hw
      have h2 : h.thread ≠ .poolRun j := by cases h <;> simp [Home.thread]
      simp only [runT, this, ht, List.count_append] at ih ⊢
      simpa [List.count_cons, h2] using ih
    | timedNotify l e r ts ht hw =>
      have := wakes_count (c := .poolRun j) (by simp [Thread.timedAsleep]) (by simp) hw
      simp only [runT, this, ht, List.count_append] at ih ⊢
      simpa [List.count_cons] using ih
  · intro s t _ ih h
    cases h with
    | call c hc =>
      cases c <;> simpa [runT, starts, finishes, Event.isStart, Event.isFinish, Call.thread, Call.event, List.count_cons] using ih
    | newQueue => exact ih
    | tick => exact ih
    | spuriousPool l r ht => simpa [runT, ht, List.count_cons] using ih
    | spuriousTimed l th r ht ha =>
      have : th ≠ .poolRun j := by rintro rfl; exact ha
      simpa [runT, ht, List.count_cons, this] using ih

end Verif.Task
