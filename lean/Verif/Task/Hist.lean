import Verif.Task.Order
/-! Calls in progress, prefixes of histories, the order of calls, due times. -/
namespace Verif.Task

theorem local_one {s th es s' th'} (h : Local s th es s' th') : es = [] ∨ ∃ e, es = [e] := by
  cases h <;> simp

theorem step_trace {s t} (h : Step s t) : t.trace = s.trace ∨ ∃ e, t.trace = s.trace ++ [e] := by
  rcases h with h | h
  · cases h with
    | thread l th r es sh th' ht hl => rcases local_one hl with rfl | ⟨e, rfl⟩ <;> simp
    | poolNotify => exact .inl rfl
    | timedNotify => exact .inl rfl
  · cases h with
    | call c hc => exact .inr ⟨_, rfl⟩
    | _ => exact .inl rfl

theorem steps_trace {s t} (h : Steps s t) : s.trace <+: t.trace := by
  induction h with
  | refl => exact List.prefix_refl _
  | step h1 h2 ih =>
    rcases step_trace h2 with h2 | ⟨e, h2⟩ <;> rw [h2]
    · exact ih
    · exact ih.trans (List.prefix_append _ _)

theorem Steps.trans {s t u} (h1 : Steps s t) (h2 : Steps t u) : Steps s u := by
  induction h2 with
  | refl => exact h1
  | step _ h ih => exact .step ih h

/-- Each prefix of a history is the history of an earlier state. -/
theorem reach_prefix {n s} (h : Reachable n s) {t1 : List Event} (ht : t1 <+: s.trace) :
    ∃ s', Reachable n s' ∧ s'.trace = t1 ∧ Steps s' s := by
  have : ∀ a, a.trace = [] → Steps a s → ∃ s', Steps a s' ∧ s'.trace = t1 ∧ Steps s' s := by
    clear h
    intro a ha h
    induction h with
    | refl =>
      rw [ha] at ht
      exact ⟨a, .refl _, by rw [ha, List.prefix_nil.mp ht], .refl _⟩
    | @step b c h1 h2 ih =>
      rcases step_trace h2 with e | ⟨e, he⟩
      · rw [e] at ht
        obtain ⟨s', g1, g2, g3⟩ := ih ht
        exact ⟨s', g1, g2, .step g3 h2⟩
      · rw [he, List.prefix_concat_iff] at ht
        rcases ht with ht | ht
        · exact ⟨c, .step h1 h2, by rw [he, ht], .refl _⟩
        · obtain ⟨s', g1, g2, g3⟩ := ih ht
          exact ⟨s', g1, g2, .step g3 h2⟩
  exact this _ rfl h

/-- The call a thread is in. -/
def Thread.call? : Thread → Option Ret
  | .ret k | .poolPush _ (.client k) | .poolNotify (.client k) => some k
  | .timedNotify j | .timedPush _ j | .serialAsync _ j => some (.async j)
  | .serialSuspend q => some (.suspend q)
  | .serialResume q => some (.resume q)
  | _ => none

def inCall (k : Ret) (ts : List Thread) : Nat := (ts.map fun t => if t.call? = some k then 1 else 0).sum

@[simp] theorem inCall_append (k) (l r : List Thread) : inCall k (l ++ r) = inCall k l + inCall k r := by simp [inCall]
@[simp] theorem inCall_cons (k) (t : Thread) (l : List Thread) :
    inCall k (t :: l) = (if t.call? = some k then 1 else 0) + inCall k l := by simp [inCall]
@[simp] theorem inCall_nil (k) : inCall k [] = 0 := rfl

theorem local_call (k : Ret) {s th es s' th'} (h : Local s th es s' th') :
    (if th.call? = some k then 1 else 0) = (if th'.call? = some k then 1 else 0) + es.countP (Event.ends k) ∧
    es.countP (Event.begins k) = 0 := by
  cases h with
  | ret k' =>
    cases k' <;> simp [Thread.call?, Event.ends, Event.begins, Ret.event, List.countP_cons] <;> simp [eq_comm]
  | poolPush j h => cases h <;> simp [Thread.call?]
  | _ => simp [Thread.call?, Event.ends, Event.begins]

theorem pending {n s} (h : Reachable n s) (k : Ret) :
    s.trace.countP (Event.begins k) = inCall k s.threads + s.trace.countP (Event.ends k) := by
  refine steps_induction h ?_ ?_ ?_
  · have : inCall k (initial n).threads = 0 := by simp [initial, inCall, Thread.call?]
    rw [this]; simp [initial]
  · intro s t _ ih h
    cases h with
    | thread l th r es sh th' ht hl =>
      have := local_call k hl
      rw [ht] at ih
      simp at ih ⊢; omega
    | poolNotify l h r ts ht hw =>
      have := wakes_sum (fun t => if t.call? = some k then 1 else 0) (by rintro _ rfl; rfl) hw
      rw [ht] at ih
      have h2 : (if h.thread.call? = some k then 1 else 0) = (if (Thread.poolNotify h).call? = some k then 1 else 0) := by
        cases h <;> rfl
      simp [inCall] at ih
      simp only [inCall, this]
      simp [h2]; omega
    | timedNotify l e r ts ht hw =>
      have := wakes_sum (fun t => if t.call? = some k then 1 else 0)
        (by intro t h; cases t <;> simp_all [Thread.timedAsleep, Thread.call?]) hw
      rw [ht] at ih
      have h2 : (if (Thread.ret (.async e)).call? = some k then 1 else 0) = (if (Thread.timedNotify e).call? = some k then 1 else 0) := rfl
      simp [inCall] at ih
      simp only [inCall, this]
      simp [h2]; omega
  · intro s t _ ih h
    cases h with
    | call c hc =>
      have : [c.event s.next].countP (Event.begins k) = (if (c.thread s.next).call? = some k then 1 else 0) ∧
          [c.event s.next].countP (Event.ends k) = 0 := by
        cases c <;> simp [Call.event, Call.thread, Thread.call?, Event.begins, Event.ends, List.countP_cons] <;> simp [eq_comm]
      simp only [List.countP_append, inCall_append, this]
      simp [ih]; omega
    | newQueue => exact ih
    | tick => exact ih
    | spuriousPool l r ht => rw [ht] at ih; simpa [Thread.call?] using ih
    | spuriousTimed l th r ht ha =>
      rw [ht] at ih
      cases th <;> simp_all [Thread.timedAsleep, Thread.call?]

theorem accepted_called {n s} (h : Reachable n s) {j} (hj : .accepted j ∈ s.trace) : 1 ≤ calls j s.trace := by
  revert hj
  refine steps_induction h ?_ ?_ ?_
  · simp [initial]
  · intro s t hr ih h hj
    have hc := (internal_held j h).2.2
    cases h with
    | thread l th r es sh th' ht hl =>
      rw [hc]
      simp at hj
      rcases hj with hj | hj
      · exact ih hj
      · have h1 : th.jobs.count j = 1 := by
          cases hl with
          | ret k => cases k <;> simp [Ret.event] at hj
          | _ => simp at hj <;> simp [hj, Thread.jobs]
        have := conserve hr j
        simp [held, ht, h1] at this
        omega
    | poolNotify l h r ts ht hw => rw [hc]; exact ih hj
    | timedNotify l e r ts ht hw => rw [hc]; exact ih hj
  · intro s t _ ih h hj
    cases h with
    | call c hc =>
      simp at hj ⊢
      rcases hj with hj | hj
      · have := ih hj; omega
      · cases c <;> simp [Call.event] at hj
    | newQueue => exact ih hj
    | tick => exact ih hj
    | spuriousPool l r ht => exact ih hj
    | spuriousTimed l th r ht ha => exact ih hj

/-- A task whose call has come further than the lock of its queue was taken by the queue. -/
def Taken (s : State) : Prop :=
  (∀ th ∈ s.threads, ∀ j q, th.call? = some (.async j) → j.queue = some q → th = .serialAsync q j ∨ j ∈ taken q s.trace) ∧
  ∀ j q, .returned j ∈ s.trace → j.queue = some q → j ∈ taken q s.trace

theorem wakes_old {a b c} {l l' : List Thread} (h : Wakes a b l l') (hc : c ∈ l') : c ∈ l ∨ c = b := by
  cases h with
  | one l th r ht =>
    simp only [List.mem_append, List.mem_cons] at hc ⊢
    tauto
  | none => exact .inl hc

theorem taken_inv {n s} (h : Reachable n s) : Taken s := by
  refine steps_induction h ?_ ?_ ?_
  · constructor
    · intro th ht
      simp [initial] at ht
      rcases ht with ht | rfl
      · obtain ⟨_, rfl⟩ := ht; simp [Thread.call?]
      · simp [Thread.call?]
    · simp [initial]
  · intro s t hr ih h
    cases h with
    | thread l th r es sh th' ht hl =>
      have hold : ∀ c ∈ l ++ r, c ∈ s.threads := by
        intro c hc; rw [ht]; simp at hc ⊢; tauto
      refine ⟨?_, ?_⟩
      · intro c hc j q h1 h2
        simp only [List.mem_append, List.mem_cons] at hc
        have : c ∈ l ++ r ∨ c = th' := by simp; tauto
        rcases this with hc | rfl
        · rcases ih.1 c (hold c hc) j q h1 h2 with h | h
          · exact .inl h
          · right; simp [h]
        · have hth := ih.1 th (by rw [ht]; simp) j q
          have ho := (own hr).thread q j
          rw [ht] at ho
          right
          cases hl with
          | poolPush k h =>
            cases h with
            | client k =>
              have h1 : k = .async j := by simpa [Thread.call?] using h1
              subst h1
              rcases hth rfl h2 with h | h
              · simp at h
              · simpa using h
            | _ => simp [Thread.call?] at h1
          | serialNow q' x k hq =>
            simp [Thread.call?] at h1
            subst h1
            simp [taken_cons, Event.take, h2]
          | serialLater q' x k hq =>
            simp [Thread.call?] at h1
            subst h1
            simp [taken_cons, Event.take, h2]
          | timedPush =>
            rcases hth h1 h2 with h | h
            · simp at h
            · simpa using h
          | _ => simp [Thread.call?] at h1
      · intro j q h1 h2
        simp at h1 ⊢
        rcases h1 with h1 | h1
        · exact .inl (ih.2 j q h1 h2)
        · left
          cases hl with
          | ret k =>
            cases k <;> simp [Ret.event] at h1
            subst h1
            rcases ih.1 (.ret (.async j)) (by rw [ht]; simp) j q rfl h2 with h | h
            · simp at h
            · exact h
          | _ => simp at h1
    | poolNotify l h r ts ht hw =>
      refine ⟨fun c hc j q h1 h2 => ?_, ih.2⟩
      rcases wakes_old hw hc with hc | rfl
      · simp only [List.mem_append, List.mem_cons] at hc
        rcases hc with hc | rfl | hc
        · exact ih.1 c (by rw [ht]; simp [hc]) j q h1 h2
        · cases h with
          | client k =>
            have h1 : k = .async j := by simpa [Thread.call?, Home.thread] using h1
            subst h1
            rcases ih.1 _ (by rw [ht]; simp; exact .inr (.inl rfl)) j q rfl h2 with h | h
            · simp at h
            · exact .inr h
          | _ => simp [Thread.call?, Home.thread] at h1
        · exact ih.1 c (by rw [ht]; simp [hc]) j q h1 h2
      · simp [Thread.call?] at h1
    | timedNotify l e r ts ht hw =>
      refine ⟨fun c hc j q h1 h2 => ?_, ih.2⟩
      rcases wakes_old hw hc with hc | rfl
      · simp only [List.mem_append, List.mem_cons] at hc
        rcases hc with hc | rfl | hc
        · exact ih.1 c (by rw [ht]; simp [hc]) j q h1 h2
        · simp [Thread.call?] at h1
          subst h1
          rcases ih.1 (.timedNotify e) (by rw [ht]; simp) e q rfl h2 with h | h
          · simp at h
          · exact .inr h
        · exact ih.1 c (by rw [ht]; simp [hc]) j q h1 h2
      · simp [Thread.call?] at h1
  · intro s t _ ih h
    cases h with
    | call c hc =>
      refine ⟨fun th hth j q h1 h2 => ?_, fun j q h1 h2 => ?_⟩
      · simp only [List.mem_append, List.mem_singleton] at hth
        rcases hth with hth | rfl
        · rcases ih.1 th hth j q h1 h2 with h | h
          · exact .inl h
          · right; simp [h]
        · left
          cases c <;> simp [Call.thread, Thread.call?] at h1 ⊢ <;> subst h1 <;> simp at h2 ⊢
          exact h2
      · simp at h1 ⊢
        rcases h1 with h1 | h1
        · exact .inl (ih.2 j q h1 h2)
        · cases c <;> simp [Call.event] at h1
    | newQueue => exact ih
    | tick => exact ih
    | spuriousPool l r ht =>
      refine ⟨fun th hth j q h1 h2 => ?_, ih.2⟩
      simp only [List.mem_append, List.mem_cons] at hth
      rcases hth with hth | rfl | hth
      · exact ih.1 th (by rw [ht]; simp [hth]) j q h1 h2
      · simp [Thread.call?] at h1
      · exact ih.1 th (by rw [ht]; simp [hth]) j q h1 h2
    | spuriousTimed l th r ht ha =>
      refine ⟨fun th hth j q h1 h2 => ?_, ih.2⟩
      simp only [List.mem_append, List.mem_cons] at hth
      rcases hth with hth | rfl | hth
      · exact ih.1 th (by rw [ht]; simp [hth]) j q h1 h2
      · simp [Thread.call?] at h1
      · exact ih.1 th (by rw [ht]; simp [hth]) j q h1 h2

/-- A task with a time is with the scheduler until its time has come. -/
theorem due_inv {n s} (h : Reachable n s) : ∀ j t, .called j (some t) ∈ s.trace →
    .timedPush t j ∈ s.threads ∨ (t, j) ∈ s.shared.timed ∨ t ≤ s.shared.now := by
  refine steps_induction h ?_ ?_ ?_
  · simp [initial]
  · intro s u hr ih h
    cases h with
    | thread l th r es sh th' ht hl =>
      intro j t hc
      have hnew : Event.called j (some t) ∉ es := by
        intro hm
        cases hl with
        | ret k => cases k <;> simp [Ret.event] at hm
        | _ => simp at hm
      have hc : Event.called j (some t) ∈ s.trace := by simpa [hnew] using hc
      rcases ih j t hc with h | h | h
      · rw [ht] at h
        simp only [List.mem_append, List.mem_cons] at h ⊢
        rcases h with h | rfl | h
        · exact .inl (.inl h)
        · right; left; cases hl; simp
        · exact .inl (.inr (.inr h))
      · right
        cases hl with
        | timedPush t' k => left; simp [h]
        | timedTake t' k l' r' hp h1 h2 =>
          rw [hp] at h
          simp only [List.mem_append, List.mem_cons, Prod.mk.injEq] at h ⊢
          rcases h with h | ⟨rfl, rfl⟩ | h
          · exact .inl (.inl h)
          · exact .inr h2
          · exact .inl (.inr h)
        | _ => exact .inl h
      · right; right
        cases hl <;> exact h
    | poolNotify l h r ts ht hw =>
      intro j t hc
      rcases ih j t hc with g | g
      · left
        rw [wakes_mem (by simp) (by simp) hw]
        rw [ht] at g
        simp only [List.mem_append, List.mem_cons] at g ⊢
        simp at g; tauto
      · exact .inr g
    | timedNotify l e r ts ht hw =>
      intro j t hc
      rcases ih j t hc with g | g
      · left
        rw [wakes_mem (by simp [Thread.timedAsleep]) (by simp) hw]
        rw [ht] at g
        simp only [List.mem_append, List.mem_cons] at g ⊢
        simp at g; tauto
      · exact .inr g
  · intro s u _ ih h
    cases h with
    | call c hc =>
      intro j t h
      simp only [List.mem_append, List.mem_singleton] at h ⊢
      rcases h with h | h
      · rcases ih j t h with g | g
        · exact .inl (.inl g)
        · exact .inr g
      · left; right
        cases c <;> simp [Call.event] at h
        obtain ⟨rfl, rfl⟩ := h; rfl
    | newQueue => exact ih
    | tick t ht =>
      intro j t h
      rcases ih j t h with g | g | g
      · exact .inl g
      · exact .inr (.inl g)
      · exact .inr (.inr (Nat.le_trans g ht))
    | spuriousPool l r ht =>
      intro j t h
      rcases ih j t h with g | g
      · left
        rw [ht] at g
        simp at g ⊢; exact g
      · exact .inr g
    | spuriousTimed l th r ht ha =>
      intro j t h
      rcases ih j t h with g | g
      · left
        rw [ht] at g
        have : th ≠ .timedPush t j := by rintro rfl; exact ha
        simp [this.symm] at g ⊢; exact g
      · exact .inr g

end Verif.Task
