import Verif.Task.Suspend
import Mathlib.Data.List.Nodup
/-! The properties C68–C71 of `adobe::async` and `shared_task_queue`. -/
namespace Verif.Task

theorem runT_le (j : Job) (ts : List Thread) : runT j ts ≤ heldT j ts := by
  induction ts with
  | nil => simp [runT]
  | cons t ts ih =>
    simp only [runT, List.count_cons, heldT_cons] at ih ⊢
    split
    · next h =>
      have : t = .poolRun j := by simpa using h
      subst this
      simp [Thread.jobs]; omega
    · omega

/-- C68.  In every history of calls and schedule, whatever the number of threads: a task starts at most once, and only if it was
submitted; it finishes at most once, and only if it was started. -/
theorem C68_at_most_once {n s} (h : Reachable n s) (j : Job) :
    calls j s.trace ≤ 1 ∧ starts j s.trace ≤ calls j s.trace ∧ finishes j s.trace ≤ starts j s.trace := by
  have h1 := conserve h j
  have h2 := running h j
  have h3 := (fresh h).2 j
  have h4 := runT_le j s.threads
  simp only [held] at h1
  omega

/-- … and this is so at each moment: submitted first, then started, then finished. -/
theorem C68_call_before_start {n s} (h : Reachable n s) {j : Job} {m t1 t2} (ht : s.trace = t1 ++ .started j m :: t2) :
    calls j t1 = 1 ∧ starts j t1 = 0 ∧ finishes j t1 = 0 := by
  obtain ⟨s1, g1, g2, _⟩ := reach_prefix h (t1 := t1 ++ [.started j m]) ⟨t2, by simp [ht]⟩
  have h1 := C68_at_most_once g1 j
  rw [g2] at h1
  simp at h1
  obtain ⟨s0, g3, g4, _⟩ := reach_prefix h (t1 := t1) ⟨.started j m :: t2, by simp [ht]⟩
  have h2 := C68_at_most_once g3 j
  rw [g4] at h2
  have e : calls j [.started j m] = 0 ∧ starts j [.started j m] = 1 ∧ finishes j [.started j m] = 0 := by
    simp [calls, starts, finishes, Event.isCall, Event.isStart, Event.isFinish]
  omega

theorem C68_start_before_finish {n s} (h : Reachable n s) {j : Job} {t1 t2} (ht : s.trace = t1 ++ .finished j :: t2) :
    starts j t1 = 1 ∧ finishes j t1 = 0 := by
  obtain ⟨s1, g1, g2, _⟩ := reach_prefix h (t1 := t1 ++ [.finished j]) ⟨t2, by simp [ht]⟩
  have h1 := C68_at_most_once g1 j
  rw [g2] at h1
  simp at h1
  have e : calls j [.finished j] = 0 ∧ starts j [.finished j] = 0 ∧ finishes j [.finished j] = 1 := by
    simp [calls, starts, finishes, Event.isCall, Event.isStart, Event.isFinish]
  omega

/-- The event of a start tells the time. -/
theorem start_time {n s} (h : Reachable n s) : ∀ j t m, .called j (some t) ∈ s.trace → .started j m ∈ s.trace → t ≤ m := by
  refine steps_induction h ?_ ?_ ?_
  · simp [initial]
  · intro s u hr ih h j t m hc hs
    cases h with
    | thread l th r es sh th' ht hl =>
      have hnew : Event.called j (some t) ∉ es := by
        intro hm
        cases hl with
        | ret k => cases k <;> simp [Ret.event] at hm
        | _ => simp at hm
      replace hc : Event.called j (some t) ∈ s.trace := by simpa [hnew] using hc
      simp only [List.mem_append] at hs
      rcases hs with hs | hs
      · exact ih j t m hc hs
      · cases hl with
        | ret k => cases k <;> simp [Ret.event] at hs
        | poolCall k =>
          simp at hs
          obtain ⟨rfl, rfl⟩ := hs
          have h1 := conserve hr j
          have h2 := (fresh hr).2 j
          rw [held, ht] at h1
          simp [Thread.jobs] at h1
          rcases due_inv hr j t hc with g | g | g
          · exfalso
            rw [ht] at g
            simp at g
            have key : ∀ {l : List Thread}, .timedPush t j ∈ l → 1 ≤ heldT j l := by
              intro l hm
              have := total_mem (f := fun t => t.jobs.count j) hm
              simpa [heldT, total, Thread.jobs] using this
            rcases g with g | g <;> have := key g <;> omega
          · exfalso
            have : 1 ≤ heldS j s.shared := by
              have : 0 < (s.shared.timed.map Prod.snd).count j := List.count_pos_iff.mpr (List.mem_map.mpr ⟨_, g, rfl⟩)
              simp only [heldS]; omega
            omega
          · exact g
        | _ => simp at hs
    | poolNotify => exact ih j t m hc hs
    | timedNotify => exact ih j t m hc hs
  · intro s u hr ih h j t m hc hs
    cases h with
    | call c hv =>
      simp only [List.mem_append, List.mem_singleton] at hc hs
      rcases hs with hs | hs
      · rcases hc with hc | hc
        · exact ih j t m hc hs
        · exfalso
          have h1 := (fresh hr).1 j
          have h2 := C68_at_most_once hr j
          have h3 : 1 ≤ starts j s.trace := by
            simp only [starts]
            exact List.one_le_countP_iff.mpr ⟨_, hs, by simp [Event.isStart]⟩
          have : j.id = s.next := by cases c <;> simp [Call.event] at hc; rw [hc.1]
          have := h1 (by omega)
          omega
      · cases c <;> simp [Call.event] at hs
    | newQueue => exact ih j t m hc hs
    | tick => exact ih j t m hc hs
    | spuriousPool => exact ih j t m hc hs
    | spuriousTimed => exact ih j t m hc hs

/-- C68.  A task submitted with a time does not start before this time. -/
theorem C68_not_early {n s} (h : Reachable n s) {j : Job} {t m} (hc : .called j (some t) ∈ s.trace) (hs : .started j m ∈ s.trace) :
    t ≤ m := start_time h j t m hc hs

/-- C69.  The tasks of a task queue run one after the other: at each moment their starts and ends are those of a sequence of
complete runs, followed by at most one start. -/
theorem C69_one_at_a_time {n s} (h : Reachable n s) (q : Nat) :
    ∃ js, runs q s.trace = sequential js ∨ ∃ j, runs q s.trace = sequential js ++ [.start j] := by
  obtain ⟨p, d, ho⟩ := ordered q h
  refine ⟨d, ?_⟩
  rw [ho.runs]
  match p with
  | none => left; simp [Phase.tail]
  | some (.ready j) => left; simp [Phase.tail]
  | some (.running j) => right; exact ⟨j, rfl⟩
  | some .after => left; simp [Phase.tail]

theorem mem_taken {q j tr} : j ∈ taken q tr ↔ .accepted j ∈ tr ∧ j.queue = some q := by
  simp only [taken, List.mem_filterMap]
  constructor
  · rintro ⟨e, h1, h2⟩
    cases e <;> simp [Event.take] at h2
    obtain ⟨h3, rfl⟩ := h2
    exact ⟨h1, h3⟩
  · rintro ⟨h1, h2⟩
    exact ⟨_, h1, by simp [Event.take, h2]⟩

theorem run_finish {q j tr} (h : .finish j ∈ runs q tr) : .finished j ∈ tr := by
  simp only [runs, List.mem_filterMap] at h
  obtain ⟨e, h1, h2⟩ := h
  cases e <;> simp [Event.run] at h2
  obtain ⟨_, rfl⟩ := h2
  exact h1

theorem calls_pos {j d tr} (h : .called j d ∈ tr) : 1 ≤ calls j tr := by
  simp only [calls]
  exact List.one_le_countP_iff.mpr ⟨_, h, by simp [Event.isCall]⟩

/-- C69.  If the call that submits `a` has returned before the call that submits `b` to the same queue begins, then `a` has
finished before `b` starts. -/
theorem C69_in_order {n s} (h : Reachable n s) {q : Nat} {a b : Job} {d m t1 t2 u1 u2}
    (ha : a.queue = some q) (hb : b.queue = some q)
    (hc : s.trace = t1 ++ .called b d :: t2) (hr : .returned a ∈ t1)
    (hs : s.trace = u1 ++ .started b m :: u2) : .finished a ∈ u1 := by
  obtain ⟨s1, g1, g2, _⟩ := reach_prefix h (t1 := t1) ⟨_, hc.symm⟩
  have h1 : a ∈ taken q t1 := by
    have := (taken_inv g1).2 a q (by rw [g2]; exact hr) ha
    rwa [g2] at this
  have h2 : b ∉ taken q t1 := by
    intro hm
    have h3 := accepted_called g1 (j := b) (by rw [g2]; exact (mem_taken.mp hm).1)
    rw [g2] at h3
    have h4 := (C68_at_most_once h b).1
    rw [hc] at h4
    have : calls b (.called b d :: t2) ≥ 1 := calls_pos (d := d) (by simp)
    simp at h4
    omega
  obtain ⟨s2, g3, g4, _⟩ := reach_prefix h (t1 := u1 ++ [.started b m]) ⟨u2, by simp [hs]⟩
  obtain ⟨p, dn, ho⟩ := ordered q g3
  have hfin : .finished a ∈ s2.trace → .finished a ∈ u1 := by rw [g4]; simp
  apply hfin
  apply run_finish (q := q)
  have hrun := ho.runs
  have : runs q s2.trace = runs q u1 ++ [.start b] := by
    rw [g4]; simp [runs_cons, Event.run, hb]
  rw [hrun] at this
  -- the last thing that happened is the start of `b`
  have hp : p = some (.running b) := by
    have hl := congrArg List.getLast? this
    simp at hl
    match p, ho, hl with
    | some (.running j), ho, hl => simpa [Phase.tail] using hl
    | none, ho, hl | some .after, ho, hl | some (.ready j), ho, hl =>
      exfalso
      simp [Phase.tail] at hl
      rcases List.eq_nil_or_concat dn with rfl | ⟨d', j', rfl⟩
      · simp [sequential] at hl
      · simp [sequential] at hl
  subst hp
  have hord := ho.order
  -- `called b` precedes its start
  have hcalled : ∃ t3, u1 ++ [.started b m] = t1 ++ .called b d :: t3 := by
    have h5 := (C68_call_before_start h hs).1
    have hpre : (t1 ++ [.called b d]) <+: s.trace := ⟨t2, by simp [hc]⟩
    have hpre2 : (u1 ++ [.started b m]) <+: s.trace := ⟨u2, by simp [hs]⟩
    rcases List.prefix_or_prefix_of_prefix hpre hpre2 with ⟨w, hw⟩ | ⟨w, hw⟩
    · exact ⟨w, by rw [← hw]; simp⟩
    · exfalso
      have hu : u1 <+: t1 := by
        have : (u1 ++ [.started b m]) ++ w = t1 ++ [.called b d] := hw
        rcases List.eq_nil_or_concat w with rfl | ⟨w', e, rfl⟩
        · have := List.append_inj' (s₁ := u1) (t₁ := [.started b m]) (s₂ := t1) (t₂ := [.called b d]) (by simpa using this) rfl
          simp at this
        · have : (u1 ++ [.started b m] ++ w') ++ [e] = t1 ++ [.called b d] := by rw [← this]; simp
          have := List.append_inj' this rfl
          rw [← this.1]; exact ⟨.started b m :: w', by simp⟩
      obtain ⟨w, rfl⟩ := hu
      have h4 := (C68_at_most_once h b).1
      rw [hc] at h4
      have : calls b (.called b d :: t2) ≥ 1 := calls_pos (d := d) (by simp)
      simp at h4
      omega
  obtain ⟨t3, ht3⟩ := hcalled
  have hsplit : taken q s2.trace = taken q t1 ++ taken q (.called b d :: t3) := by rw [g4, ht3]; simp
  rw [hsplit] at hord
  have hadn : a ∈ dn := by
    -- `taken t1` contains `a` and not `b`, therefore it is a prefix of `dn`
    simp only [Phase.cur, List.append_assoc, List.singleton_append] at hord
    rcases List.append_eq_append_iff.mp hord with ⟨w, hw1, hw2⟩ | ⟨w, hw1, hw2⟩
    · rw [hw1]; simp [h1]
    · cases w with
      | nil => simp at hw1; rw [← hw1]; exact h1
      | cons c w =>
        simp at hw2
        obtain ⟨rfl, _⟩ := hw2
        exact absurd (by rw [hw1]; simp) h2
  rw [hrun]
  simp only [List.mem_append, sequential, List.mem_flatMap]
  exact .inl ⟨a, hadn, by simp⟩

/-- C70.  When a call of `suspend` has returned, at most one more task of the queue starts (the one the queue has already given
to the pool), as long as nobody calls `resume`.  Conditions: when the call of `suspend` begins, no other call of `suspend` or `resume`
is in progress; no call of `resume` begins later. -/
theorem C70_suspend {n s} (h : Reachable n s) {q : Nat} {t1 t2 t3} (ht : s.trace = t1 ++ t2 ++ .suspended q :: t3)
    (hd : CallsDone q t1) (h2 : .resumeCalled q ∉ t2) (h3 : .resumeCalled q ∉ t3) :
    t3.countP (Event.startsOn q) ≤ 1 ∧
    ((∀ j, j.queue = some q → finishes j (t1 ++ t2) = calls j (t1 ++ t2)) → t3.countP (Event.startsOn q) = 0) := by
  obtain ⟨s1, g1, g2, g3⟩ := reach_prefix h (t1 := t1 ++ t2 ++ [.suspended q]) ⟨t3, by simp [ht]⟩
  obtain ⟨s0, k1, k2, k3⟩ := reach_prefix g1 (t1 := t1) ⟨t2 ++ [.suspended q], by simp [g2]⟩
  obtain ⟨n1, n2⟩ := suspend_takes (q := q) k1 k3 (by rw [k2]; exact hd) (by
    intro es hes
    rw [g2, k2] at hes
    have : es = t2 ++ [.suspended q] := by rw [List.append_assoc] at hes; exact (List.append_cancel_left hes).symm
    simp [this, h2])
  have n2 : (ser q s1.shared).suspend = true := by
    rcases n2 with n2 | ⟨_, n2⟩
    · exact n2
    · exfalso
      exact n2 (t2 ++ [.suspended q]) (by rw [g2, k2]; simp) (by simp)
  obtain ⟨es, m1, m2, _⟩ := suspended_run g1 g3 n1 n2 (by
    intro es hes
    rw [g2, ht] at hes
    have : es = t3 := by simpa using hes.symm
    rwa [this])
  have : es = t3 := by
    rw [g2, ht] at m1
    simpa using m1.symm
  subst this
  refine ⟨by have := readies_le (q := q) g1; omega, fun hall => ?_⟩
  have : readies q s1 = 0 := by
    rw [readies, List.countP_eq_zero]
    intro p hp hready
    obtain ⟨j, rfl⟩ : ∃ j, p = .ready j := by cases p <;> simp_all [Phase.isReady]
    obtain ⟨p', d, ho⟩ := ordered q g1
    have hj : j.queue = some q := by
      rw [ho.flight] at hp
      exact ho.own j (by left; cases p' <;> simp_all)
    have hheld : 1 ≤ held j s1 := by
      simp only [flight, phaseS, List.mem_append, List.mem_flatMap] at hp
      rcases hp with ⟨th, hm, hph⟩ | ⟨k, hm, hk⟩ | ⟨k, hm, hk⟩
      · have : j ∈ th.jobs := by
          cases th <;> simp [phaseT, readyIf, Thread.jobs] at hph ⊢ <;> (try exact hph.2) <;>
            (try (split at hph <;> simp_all))
        have h1 := total_mem (f := fun t => t.jobs.count j) hm
        have h2 : 0 < th.jobs.count j := List.count_pos_iff.mpr this
        simp only [held, heldT]
        simp only [total] at h1
        omega
      · have : k = j := by simp [readyIf] at hk; exact hk.2.symm
        subst this
        have : 0 < s1.shared.pool.count k := List.count_pos_iff.mpr hm
        simp only [held, heldS]; omega
      · have : k = j := by simp [readyIf] at hk; exact hk.2.symm
        subst this
        have : 0 < (s1.shared.timed.map Prod.snd).count k := List.count_pos_iff.mpr hm
        simp only [held, heldS]; omega
    have h4 := conserve g1 j
    rw [g2] at h4
    have h5 := hall j hj
    have e1 : calls j [.suspended q] = 0 ∧ finishes j [.suspended q] = 0 := by simp [calls, finishes, Event.isCall, Event.isFinish]
    simp only [calls_append, finishes_append] at h4 h5
    omega
  omega

/-- C71.  The pool does not sleep over work: when the library itself has nothing to do, then a task that could start does
not wait, unless all `n` threads of the pool are running tasks. -/
theorem C71_pool_busy {n s} (h : Reachable n s) (hr : Resting s) {j : Job} (hq : j.queue = none)
    (hc : 1 ≤ calls j s.trace) (hs : starts j s.trace = 0) (hd : ∀ t, .called j (some t) ∈ s.trace → t ≤ s.shared.now) :
    ∃ js : List Job, js.Nodup ∧ js.length = n ∧ ∀ k ∈ js, starts k s.trace = 1 ∧ finishes k s.trace = 0 := by
  have hidle := resting_idle h hr
  have hfin : finishes j s.trace = 0 := by have := C68_at_most_once h j; omega
  have hrunj : runT j s.threads = 0 := by have := running h j; omega
  have nonotify : ∀ k, .timedNotify k ∉ s.threads := by
    intro k hk
    have := hidle _ hk
    simp [Thread.idle] at this
  have hpool : j ∈ s.shared.pool := by
    rcases where_is h hc hfin with ⟨th, h1, h2⟩ | g | ⟨t, g⟩ | ⟨q, g⟩
    · exfalso
      rcases hidle th h1 with g | ⟨k, rfl⟩
      · cases th <;> simp_all [Thread.idle, Thread.jobs]
      · simp [Thread.jobs] at h2
        subst h2
        have : 0 < s.threads.count (.poolRun j) := List.count_pos_iff.mpr h1
        simp only [runT] at hrunj; omega
    · exact g
    · exfalso
      have hle := hd t (due_called h j t (.inr g))
      have hsc := (census h).2
      obtain ⟨th, h1, h2⟩ := total_pos (f := scheds) (ts := s.threads) (by omega)
      rcases hidle th h1 with k | ⟨k, rfl⟩
      · have ha : th.timedAsleep := by cases th <;> simp_all [Thread.idle, scheds, Thread.timedAsleep]
        rcases punctual h th h1 ha with p | ⟨j', p⟩
        · obtain ⟨t', rfl, h3⟩ := p _ g
          simp [Thread.idle] at k
          simp at h3
          omega
        · exact nonotify j' p
      · simp [scheds] at h2
    · have := (own h).waiting q j g
      rw [hq] at this; simp at this
  -- nobody sleeps
  have hzero : total notifiers s.threads = 0 ∧ total checkers s.threads = 0 := by
    constructor <;> by_contra hne <;> obtain ⟨th, h1, h2⟩ := total_pos (Nat.pos_of_ne_zero hne) <;>
      rcases hidle th h1 with k | ⟨k, rfl⟩ <;> (try cases th) <;> simp_all [Thread.idle, notifiers, checkers]
  have hsl : total sleepers s.threads = 0 := by
    rcases pool_awake h with g | g
    · exact g
    · have : 0 < s.shared.pool.length := List.length_pos_of_mem hpool
      omega
  have hw := (census h).1
  let js := s.threads.filterMap fun | .poolRun k => some k | _ => none
  have hcount : ∀ k, js.count k = runT k s.threads := by
    intro k
    show (List.filterMap _ s.threads).count k = s.threads.count _
    generalize s.threads = ts
    induction ts with
    | nil => rfl
    | cons t ts ih => cases t <;> simp [List.count_cons, ih]
  refine ⟨js, ?_, ?_, ?_⟩
  · rw [List.nodup_iff_count_le_one]
    intro k
    rw [hcount]
    have h1 := running h k
    have h2 := C68_at_most_once h k
    omega
  · have key : ∀ ts : List Thread, (∀ th ∈ ts, th.idle s.shared.now ∨ ∃ j, th = .poolRun j) → total sleepers ts = 0 →
        (ts.filterMap fun | .poolRun k => some k | _ => none).length = total workers ts := by
      intro ts
      induction ts with
      | nil => simp
      | cons t ts ih =>
        intro h1 h2
        simp at h2
        have ih := ih (fun th hm => h1 th (by simp [hm])) h2.2
        have ht := h1 t (by simp)
        cases t <;> simp_all [Thread.idle, workers, sleepers] <;> omega
    rw [← hw]
    exact key s.threads hidle hsl
  · intro k hk
    have : 0 < js.count k := List.count_pos_iff.mpr hk
    rw [hcount] at this
    have h1 := running h k
    have h2 := C68_at_most_once h k
    omega

/-- A task with a time does not belong to a queue. -/
theorem due_plain {n s} (h : Reachable n s) : ∀ j t, .called j (some t) ∈ s.trace → j.queue = none := by
  refine steps_induction h ?_ ?_ ?_
  · simp [initial]
  · intro s u hr ih h j t hc
    apply ih j t
    cases h with
    | thread l th r es sh th' ht hl =>
      simp only [List.mem_append] at hc
      rcases hc with hc | hc
      · exact hc
      · exfalso
        cases hl with
        | ret k => cases k <;> simp [Ret.event] at hc
        | _ => simp at hc
    | poolNotify => exact hc
    | timedNotify => exact hc
  · intro s u hr ih h j t hc
    cases h with
    | call c hv =>
      simp only [List.mem_append, List.mem_singleton] at hc
      rcases hc with hc | hc
      · exact ih j t hc
      · cases c <;> simp [Call.event] at hc
        rw [hc.1]
    | newQueue => exact ih j t hc
    | tick => exact ih j t hc
    | spuriousPool => exact ih j t hc
    | spuriousTimed => exact ih j t hc

theorem stuck_pool {n s} (h : Reachable n s) (hn : 0 < n) (hst : Stuck s) : s.shared.pool = [] := by
  have hidle := stuck_idle h hst
  have p : 0 < total sleepers s.threads := by
    have hw := (census h).1
    obtain ⟨th, h1, h2⟩ := total_pos (f := workers) (ts := s.threads) (by omega)
    have : sleepers th = 1 := by
      have := hidle th h1
      cases th <;> simp_all [Thread.idle, workers, sleepers]
    have := total_mem (f := sleepers) h1
    omega
  rcases pool_awake h with k | k
  · omega
  · have hzero : total notifiers s.threads = 0 ∧ total checkers s.threads = 0 := by
      constructor <;> by_contra hne <;> obtain ⟨th, h1, h2⟩ := total_pos (Nat.pos_of_ne_zero hne) <;>
        have := hidle th h1 <;> cases th <;> simp_all [Thread.idle, notifiers, checkers]
    exact List.eq_nil_of_length_eq_zero (by omega)

/-- C71.  If the pool has a thread, then, when nothing can go on any more, each submitted task has run — except those whose time has not come and
those of a queue that was suspended and not resumed. -/
theorem C71_all_tasks_run {n s} (h : Reachable n s) (hn : 0 < n) (hst : Stuck s) {j : Job} (hc : 1 ≤ calls j s.trace) :
    finishes j s.trace = 1 ∨ (∃ t, .called j (some t) ∈ s.trace ∧ s.shared.now < t) ∨
    ∃ q, j.queue = some q ∧ SuspendedAt q s.trace := by
  have hidle := stuck_idle h hst
  have hpool := stuck_pool h hn hst
  by_cases hf : finishes j s.trace = 0
  swap
  · left; have := C68_at_most_once h j; omega
  right
  rcases where_is h hc hf with ⟨th, h1, h2⟩ | g | ⟨t, g⟩ | ⟨q, g⟩
  · exfalso
    have := hidle th h1
    cases th <;> simp_all [Thread.idle, Thread.jobs]
  · rw [hpool] at g; simp at g
  · left
    refine ⟨t, due_called h j t (.inr g), ?_⟩
    have hsc := (census h).2
    obtain ⟨th, h1, h2⟩ := total_pos (f := scheds) (ts := s.threads) (by omega)
    have k := hidle th h1
    have ha : th.timedAsleep := by cases th <;> simp_all [Thread.idle, scheds, Thread.timedAsleep]
    rcases punctual h th h1 ha with p | ⟨j', p⟩
    · obtain ⟨t', rfl, h3⟩ := p _ g
      simp [Thread.idle] at k
      simp at h3
      omega
    · have := hidle _ p
      simp [Thread.idle] at this
  · right
    refine ⟨q, (own h).waiting q j g, ?_⟩
    obtain ⟨p, d, ho⟩ := ordered q h
    have hp : p = none := by
      rcases hp : p with _ | ph
      · rfl
      · exfalso
        have : ph ∈ flight q s := by rw [ho.flight, hp]; simp
        simp only [flight, phaseS, List.mem_append, List.mem_flatMap] at this
        rcases this with ⟨th, h1, h2⟩ | ⟨k, h1, h2⟩ | ⟨k, h1, h2⟩
        · have := hidle th h1
          cases th <;> simp_all [Thread.idle, phaseT]
        · rw [hpool] at h1; simp at h1
        · obtain ⟨⟨t, k⟩, h3, rfl⟩ := List.mem_map.mp h1
          have := due_plain h k t (due_called h k t (.inr h3))
          simp [readyIf, this] at h2
    have he : (ser q s.shared).executing = false := by rw [ho.exec, hp]; rfl
    have hsus : (ser q s.shared).suspend = true := by
      by_contra hne
      have := ho.idle he (by simpa using hne)
      rw [this] at g; simp at g
    rcases flagged q h hsus with k | k | k
    · have := hidle _ k; simp [Thread.idle] at this
    · have := hidle _ k; simp [Thread.idle] at this
    · exact k

/-- C71.  The library and the tasks (if each of them ends) come to rest: there is a bound on the number of steps they do before a
new call is made. -/
theorem C71_comes_to_rest (s : State) : ∃ bound, ∀ k t, Run.Steps k s t → k ≤ bound := by
  refine ⟨s.cost, fun k t h => ?_⟩
  have : k + t.cost ≤ s.cost := by
    induction h with
    | refl => omega
    | step h1 _ ih => have := internal_cost h1; omega
  omega

theorem Run.Steps.steps {k s t} (h : Run.Steps k s t) : Task.Steps s t := by
  induction h with
  | refl => exact .refl _
  | step h1 _ ih => exact Steps.trans (.step (.refl _) (.inl h1)) ih

/-- … and where they come to rest all tasks have run. -/
theorem C71_eventually_run {n s} (h : Reachable n s) (hn : 0 < n) :
    ∃ k t, Run.Steps k s t ∧ Stuck t ∧ ∀ j, 1 ≤ calls j t.trace → finishes j t.trace = 1 ∨
      (∃ d, .called j (some d) ∈ t.trace ∧ t.shared.now < d) ∨ ∃ q, j.queue = some q ∧ SuspendedAt q t.trace := by
  have : ∃ k t, Run.Steps k s t ∧ Stuck t := by
    generalize hc : s.cost = c
    induction c using Nat.strongRecOn generalizing s with
    | _ c ih =>
      by_cases hs : Stuck s
      · exact ⟨0, s, .refl _, hs⟩
      · simp only [Stuck, not_forall, not_not] at hs
        obtain ⟨t, ht⟩ := hs
        obtain ⟨k, u, h1, h2⟩ := ih t.cost (hc ▸ internal_cost ht) (Steps.step h (.inl ht)) rfl
        exact ⟨k + 1, u, .step ht h1, h2⟩
  obtain ⟨k, t, h1, h2⟩ := this
  exact ⟨k, t, h1, h2, fun j hj => C71_all_tasks_run (Steps.trans h h1.steps) hn h2 hj⟩

end Verif.Task
