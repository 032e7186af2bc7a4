import Verif.Task.Wake
/-! The number of steps is bounded; at the end all tasks have run. -/
namespace Verif.Task

/-- A bound on the steps a thread and its task still cause. -/
def cost (now : Nat) : Thread → Nat
  | .done => 0
  | .ret _ => 1
  | .poolPush _ _ => 8
  | .poolNotify _ => 3
  | .poolCheck => 1
  | .poolSleep => 0
  | .poolCall _ => 4
  | .poolRun _ => 3
  | .poolAfter _ => 2
  | .timedPush _ _ => 12
  | .timedNotify _ => 3
  | .timedCheck => 1
  | .timedSleep => 0
  | .timedWait t => if t ≤ now then 2 else 0
  | .serialAsync _ _ => 9
  | .serialSuspend _ => 2
  | .serialResume _ => 2

def Shared.cost (s : Shared) : Nat := 4 * s.pool.length + 8 * s.timed.length + (s.serial.map fun x => 7 * x.q.length).sum

def State.cost (s : State) : Nat := total (Task.cost s.shared.now) s.threads + s.shared.cost

theorem cost_setSerial {s : Shared} {q : Nat} {x : Serial} (h : s.serial[q]? = some x) (y : Serial) :
    (s.setSerial q y).cost + 7 * x.q.length = s.cost + 7 * y.q.length := by
  have := sum_set (fun x : Serial => 7 * x.q.length) h y
  simp only [Shared.cost, Shared.setSerial]
  omega

theorem local_now {s th es s' th'} (h : Local s th es s' th') : s'.now = s.now := by cases h <;> rfl

theorem local_cost {s th es s' th'} (h : Local s th es s' th') :
    cost s.now th' + s'.cost < cost s.now th + s.cost := by
  cases h with
  | poolPush => simp [cost, Shared.cost]; omega
  | poolTake k js hp => simp [cost, Shared.cost, hp]; omega
  | continueNext q x k js hq hs hk =>
    have := cost_setSerial hq { x with q := js }
    simp [hk] at this
    simp [cost]; omega
  | continueStop q x hq =>
    have := cost_setSerial hq { x with executing := false }
    simp only at this
    simp [cost]; omega
  | timedPush => simp [cost, Shared.cost]; omega
  | timedEarly t j _ _ h => simp [cost]; omega
  | timedTake t k l r hp => simp [cost, Shared.cost, hp]; omega
  | timedTimeout t h => simp [cost, h]
  | serialNow q x k hq =>
    have := cost_setSerial hq { x with executing := true }
    simp only at this
    simp [cost]; omega
  | serialLater q x k hq =>
    have := cost_setSerial hq { x with q := x.q ++ [k] }
    simp at this
    simp [cost]; omega
  | suspend q x hq =>
    have := cost_setSerial hq { x with suspend := true }
    simp only at this
    simp [cost]; omega
  | resumeOnly q x hq =>
    have := cost_setSerial hq { x with suspend := false }
    simp only at this
    simp [cost]; omega
  | resumeNext q x k js hq hs he hk =>
    have := cost_setSerial hq { q := js, suspend := false, executing := true }
    simp [hk] at this
    simp [cost]; omega
  | _ => simp [cost]

theorem wakes_cost {a b c} {l l' : List Thread} (hb : cost c b = 1) (h : Wakes a b l l') :
    total (cost c) l' ≤ total (cost c) l + 1 := by
  cases h with
  | one l th r ht => simp; omega
  | none => omega

theorem internal_cost {s t} (h : Internal s t) : t.cost < s.cost := by
  cases h with
  | thread l th r es sh th' ht hl =>
    have h1 := local_cost hl
    have h2 := local_now hl
    simp [State.cost, ht, h2]; omega
  | poolNotify l h r ts ht hw =>
    have h1 := wakes_cost (c := s.shared.now) rfl hw
    have h2 : cost s.shared.now h.thread = 1 := by cases h <;> rfl
    simp [State.cost, ht, h2] at h1 ⊢
    simp [cost]; omega
  | timedNotify l e r ts ht hw =>
    have h1 := wakes_cost (c := s.shared.now) rfl hw
    simp [State.cost, ht] at h1 ⊢
    simp [cost] at h1 ⊢; omega

theorem wakes_exists (a : Thread → Prop) (b : Thread) (l : List Thread) : ∃ l', Wakes a b l l' := by
  by_cases h : ∃ th ∈ l, a th
  · obtain ⟨th, h1, h2⟩ := h
    obtain ⟨l1, l2, rfl⟩ := List.append_of_mem h1
    exact ⟨_, .one _ _ _ h2⟩
  · exact ⟨l, .none _ (fun th h1 h2 => h ⟨th, h1, h2⟩)⟩

theorem min_exists {l : List (Nat × Job)} (h : l ≠ []) : ∃ t j, (t, j) ∈ l ∧ ∀ e ∈ l, t ≤ e.1 := by
  induction l with
  | nil => simp at h
  | cons a l ih =>
    by_cases hl : l = []
    · subst hl; exact ⟨a.1, a.2, by simp, by simp⟩
    · obtain ⟨t, j, h1, h2⟩ := ih hl
      by_cases h3 : a.1 ≤ t
      · exact ⟨a.1, a.2, by simp, by
          intro e he; simp at he
          rcases he with rfl | he
          · exact Nat.le_refl _
          · exact Nat.le_trans h3 (h2 e he)⟩
      · exact ⟨t, j, by simp [h1], by
          intro e he; simp at he
          rcases he with rfl | he
          · omega
          · exact h2 e he⟩

/-- What a thread that cannot go on is doing. -/
def Thread.idle (now : Nat) : Thread → Prop
  | .done | .poolSleep | .timedSleep => True
  | .timedWait t => now < t
  | _ => False

/-- Which threads can go on. -/
theorem can_step {n s} (hr : Reachable n s) {th} (hm : th ∈ s.threads) (hi : ¬ th.idle s.shared.now) :
    ∃ t, Internal s t ∧ ((∃ j, th = .poolRun j) ∨ ∀ j, t.trace ≠ s.trace ++ [.finished j]) := by
  obtain ⟨l, r, ht⟩ := List.append_of_mem hm
  have go : ∀ {es sh th'}, Local s.shared th es sh th' → ((∃ j, th = .poolRun j) ∨ ∀ j, es ≠ [.finished j]) →
      ∃ t, Internal s t ∧ ((∃ j, th = .poolRun j) ∨ ∀ j, t.trace ≠ s.trace ++ [.finished j]) := by
    intro es sh th' h hf
    refine ⟨_, .thread s l th r es sh th' ht h, ?_⟩
    simpa using hf
  have serial : ∀ q, th.queue? = some q → ∃ x, s.shared.serial[q]? = some x := by
    intro q hq
    exact ⟨_, List.getElem?_eq_getElem (valid_inv hr th hm q hq)⟩
  cases th with
  | done => simp [Thread.idle] at hi
  | ret k => exact go (.ret _ _) (by right; cases k <;> simp [Ret.event])
  | poolPush j h => exact go (.poolPush _ _ _) (by simp)
  | poolNotify h =>
    obtain ⟨ts, hw⟩ := wakes_exists (· = .poolSleep) .poolCheck (l ++ h.thread :: r)
    exact ⟨_, .poolNotify s l h r ts ht hw, by simp⟩
  | poolCheck =>
    cases hp : s.shared.pool with
    | nil => exact go (.poolEmpty _ hp) (by simp)
    | cons j js => exact go (.poolTake _ _ _ hp) (by simp)
  | poolSleep => simp [Thread.idle] at hi
  | poolCall j => exact go (.poolCall _ _) (by simp)
  | poolRun j =>
    cases hj : j.queue with
    | none => exact go (.poolDone _ _ hj) (by simp)
    | some q => exact go (.poolAfter _ _ _ hj) (by simp)
  | poolAfter q =>
    obtain ⟨p, d, ho⟩ := ordered q hr
    have hf : Phase.after ∈ flight q s := by
      simp only [flight, List.mem_append, List.mem_flatMap]
      exact .inl ⟨_, hm, by simp [phaseT]⟩
    rw [ho.flight] at hf
    have he : (ser q s.shared).executing = true := by
      rw [ho.exec]; cases p <;> simp_all
    cases hx : s.shared.serial[q]? with
    | none => simp [ser, hx] at he
    | some x =>
      cases hs : x.suspend with
      | true => exact go (.continueStop _ _ _ hx (.inl hs)) (by simp)
      | false =>
        cases hk : x.q with
        | nil => exact go (.continueStop _ _ _ hx (.inr hk)) (by simp)
        | cons j js => exact go (.continueNext _ _ _ _ _ hx hs hk) (by simp)
  | timedPush t j => exact go (.timedPush _ _ _) (by simp)
  | timedNotify j =>
    obtain ⟨ts, hw⟩ := wakes_exists Thread.timedAsleep .timedCheck (l ++ .ret (.async j) :: r)
    exact ⟨_, .timedNotify s l j r ts ht hw, by simp⟩
  | timedCheck =>
    by_cases hp : s.shared.timed = []
    · exact go (.timedEmpty _ hp) (by simp)
    · obtain ⟨t, j, h1, h2⟩ := min_exists hp
      by_cases h3 : t ≤ s.shared.now
      · obtain ⟨l', r', hlr⟩ := List.append_of_mem h1
        exact go (.timedTake _ t j l' r' hlr h2 h3) (by simp)
      · exact go (.timedEarly _ t j h1 h2 (by omega)) (by simp)
  | timedSleep => simp [Thread.idle] at hi
  | timedWait t =>
    simp [Thread.idle] at hi
    exact go (.timedTimeout _ _ hi) (by simp)
  | serialAsync q j =>
    obtain ⟨x, hx⟩ := serial q rfl
    cases h1 : x.executing with
    | true => exact go (.serialLater _ _ _ _ hx (.inl h1)) (by simp)
    | false =>
      cases h2 : x.suspend with
      | true => exact go (.serialLater _ _ _ _ hx (.inr h2)) (by simp)
      | false => exact go (.serialNow _ _ _ _ hx h1 h2) (by simp)
  | serialSuspend q =>
    obtain ⟨x, hx⟩ := serial q rfl
    exact go (.suspend _ _ _ hx) (by simp)
  | serialResume q =>
    obtain ⟨x, hx⟩ := serial q rfl
    cases h2 : x.suspend with
    | false => exact go (.resumeNot _ _ _ hx h2) (by simp)
    | true =>
      cases h1 : x.executing with
      | true => exact go (.resumeOnly _ _ _ hx h2 (.inl h1)) (by simp)
      | false =>
        cases hk : x.q with
        | nil => exact go (.resumeOnly _ _ _ hx h2 (.inr hk)) (by simp)
        | cons j js => exact go (.resumeNext _ _ _ _ _ hx h2 h1 hk) (by simp)

theorem stuck_idle {n s} (hr : Reachable n s) (h : Stuck s) : ∀ th ∈ s.threads, th.idle s.shared.now := by
  intro th hm
  by_contra hi
  obtain ⟨t, h1, _⟩ := can_step hr hm hi
  exact h t h1

theorem resting_idle {n s} (hr : Reachable n s) (h : Resting s) :
    ∀ th ∈ s.threads, th.idle s.shared.now ∨ ∃ j, th = .poolRun j := by
  intro th hm
  by_contra hi
  rw [not_or] at hi
  obtain ⟨t, h1, h2⟩ := can_step hr hm hi.1
  rcases h2 with h2 | h2
  · exact hi.2 h2
  · obtain ⟨j, hj⟩ := h t h1
    exact h2 j hj

/-- A suspended queue was suspended by a call, and not resumed by a later one. -/
def Flagged (q : Nat) (s : State) : Prop := (ser q s.shared).suspend = true →
  .ret (.suspend q) ∈ s.threads ∨ .serialResume q ∈ s.threads ∨ SuspendedAt q s.trace

theorem local_suspend (q : Nat) {s th es s' th'} (h : Local s th es s' th') (hs : (ser q s').suspend = true) :
    ((ser q s).suspend = true ∧ th ≠ .serialResume q) ∨ th' = .ret (.suspend q) := by
  have key : ∀ {q' x y}, s.serial[q']? = some x → (q' = q → y.suspend = true → x.suspend = true) →
      (ser q (s.setSerial q' y)).suspend = true → (ser q s).suspend = true := by
    intro q' x y hx hy hm
    rw [ser_setSerial hx] at hm
    split at hm
    · next e => subst e; rw [ser_of hx]; exact hy rfl hm
    · exact hm
  cases h with
  | continueNext q' x k js hq hs' hk => left; exact ⟨key hq (by simp) hs, by simp⟩
  | continueStop q' x hq hs' => left; exact ⟨key hq (by simp) hs, by simp⟩
  | serialNow q' x j hq => left; exact ⟨key hq (by simp) hs, by simp⟩
  | serialLater q' x k hq => left; exact ⟨key hq (by simp) hs, by simp⟩
  | suspend q' x hq =>
    by_cases e : q' = q
    · subst e; right; rfl
    · left; exact ⟨key hq (fun h => absurd h e) hs, by simp⟩
  | resumeNot q' x hq hs' =>
    left
    refine ⟨hs, ?_⟩
    rintro he
    simp at he; subst he
    rw [ser_of hq, hs'] at hs; simp at hs
  | resumeOnly q' x hq hs' =>
    left
    refine ⟨key hq (fun _ h => by simp at h) hs, ?_⟩
    rintro he
    simp at he; subst he
    rw [ser_setSerial hq] at hs; simp at hs
  | resumeNext q' x k js hq hs' he hk =>
    left
    refine ⟨key hq (fun _ h => by simp at h) hs, ?_⟩
    rintro he
    simp at he; subst he
    rw [ser_setSerial hq] at hs; simp at hs
  | _ => left; exact ⟨hs, by simp⟩

theorem suspendedAt_append {q tr es} (h : SuspendedAt q tr) (he : .resumeCalled q ∉ es) : SuspendedAt q (tr ++ es) := by
  obtain ⟨t1, t2, rfl, h2⟩ := h
  exact ⟨t1, t2 ++ es, by simp, by simp [h2, he]⟩

theorem flagged (q : Nat) {n s} (h : Reachable n s) : Flagged q s := by
  refine steps_induction h ?_ ?_ ?_
  · simp [Flagged, initial, ser]
  · intro s t hr ih h
    cases h with
    | thread l th r es sh th' ht hl =>
      intro hs
      rcases local_suspend q hl hs with ⟨h1, h2⟩ | rfl
      · have hnr : Event.resumeCalled q ∉ es := by
          cases hl with
          | ret k => cases k <;> simp [Ret.event]
          | _ => simp
        rcases ih h1 with g | g | g
        · by_cases e : th = .ret (.suspend q)
          · right; right
            subst e
            cases hl
            exact ⟨s.trace, [], by simp [Ret.event], by simp⟩
          · left
            rw [ht] at g
            have e := Ne.symm e
            simp [e] at g ⊢; tauto
        · right; left
          rw [ht] at g
          simp [h2.symm] at g ⊢; tauto
        · right; right; exact suspendedAt_append g hnr
      · left; simp
    | poolNotify l h r ts ht hw =>
      intro hs
      rcases ih hs with g | g | g
      · left
        rw [wakes_mem (by simp) (by simp) hw]
        rw [ht] at g; simp at g ⊢; tauto
      · right; left
        rw [wakes_mem (by simp) (by simp) hw]
        rw [ht] at g; simp at g ⊢; tauto
      · exact .inr (.inr g)
    | timedNotify l e r ts ht hw =>
      intro hs
      rcases ih hs with g | g | g
      · left
        rw [wakes_mem (by simp [Thread.timedAsleep]) (by simp) hw]
        rw [ht] at g; simp at g ⊢; tauto
      · right; left
        rw [wakes_mem (by simp [Thread.timedAsleep]) (by simp) hw]
        rw [ht] at g; simp at g ⊢; tauto
      · exact .inr (.inr g)
  · intro s t hr ih h
    cases h with
    | call c hc =>
      intro hs
      rcases ih hs with g | g | g
      · left; simp [g]
      · right; left; simp [g]
      · by_cases hq : c.event s.next = .resumeCalled q
        · right; left
          cases c <;> simp [Call.event] at hq
          subst hq; simp [Call.thread]
        · right; right
          exact suspendedAt_append g (by simp; exact Ne.symm hq)
    | newQueue =>
      intro hs
      apply ih
      simp only [ser, List.getElem?_append] at hs ⊢
      split at hs
      · exact hs
      · rw [List.getElem?_singleton] at hs
        split at hs <;> simp at hs
    | tick => exact ih
    | spuriousPool l r ht =>
      intro hs
      rcases ih hs with g | g | g
      · left; rw [ht] at g; simp at g ⊢; exact g
      · right; left; rw [ht] at g; simp at g ⊢; exact g
      · exact .inr (.inr g)
    | spuriousTimed l th r ht ha =>
      intro hs
      have h1 : Thread.ret (.suspend q) ≠ th := by rintro rfl; exact ha
      have h2 : Thread.serialResume q ≠ th := by rintro rfl; exact ha
      rcases ih hs with g | g | g
      · left; rw [ht] at g; simp [h1] at g ⊢; exact g
      · right; left; rw [ht] at g; simp [h2] at g ⊢; exact g
      · exact .inr (.inr g)

/-- Where an unfinished task is. -/
theorem where_is {n s} (hr : Reachable n s) {j} (hc : 1 ≤ calls j s.trace) (hf : finishes j s.trace = 0) :
    (∃ th ∈ s.threads, j ∈ th.jobs) ∨ j ∈ s.shared.pool ∨ (∃ t, (t, j) ∈ s.shared.timed) ∨ ∃ q, j ∈ (ser q s.shared).q := by
  have h := conserve hr j
  rw [hf] at h
  by_contra hno
  simp only [not_or, not_exists] at hno
  obtain ⟨h1, h2, h3, h4⟩ := hno
  have e1 : heldT j s.threads = 0 := by
    by_contra hne
    obtain ⟨t, g1, g2⟩ := total_pos (f := fun t => t.jobs.count j) (Nat.pos_of_ne_zero hne)
    exact h1 t ⟨g1, List.count_pos_iff.mp g2⟩
  have e2 : s.shared.pool.count j = 0 := List.count_eq_zero.mpr h2
  have e3 : (s.shared.timed.map Prod.snd).count j = 0 := by
    apply List.count_eq_zero.mpr
    simp only [List.mem_map, not_exists]
    rintro ⟨t, k⟩ ⟨g1, rfl⟩
    exact h3 t g1
  have e4 : (s.shared.serial.map fun x => x.q.count j).sum = 0 := by
    rw [List.sum_eq_zero]
    intro c hc
    simp only [List.mem_map] at hc
    obtain ⟨x, g1, rfl⟩ := hc
    apply List.count_eq_zero.mpr
    intro g2
    obtain ⟨q, hq, rfl⟩ := List.mem_iff_getElem.mp g1
    exact h4 q (by rw [ser_of (List.getElem?_eq_getElem hq)]; exact g2)
  simp only [held, heldS] at h
  omega

end Verif.Task
