import Verif.Task.Live
/-! A suspended queue starts at most the task it has already released. -/
namespace Verif.Task

/-- The released task has not started. -/
def Phase.isReady : Phase → Bool
  | .ready _ => true
  | _ => false

def readies (q : Nat) (s : State) : Nat := (flight q s).countP Phase.isReady

theorem startsOn_filter (q : Nat) (es : List Event) (h : es.filter (Event.ofQueue q) = []) : es.countP (Event.startsOn q) = 0 := by
  rw [List.countP_eq_zero]
  intro e he hs
  have : e ∈ es.filter (Event.ofQueue q) := by
    rw [List.mem_filter]; refine ⟨he, ?_⟩
    cases e <;> simp_all [Event.startsOn, Event.ofQueue]
  rw [h] at this
  simp at this

/-- While a queue is suspended, the starts and the released tasks do not become more. -/
theorem suspended_step {q n s t} (hr : Reachable n s) (h : Step s t) (h1 : (ser q s.shared).suspend = true)
    (h2 : (ser q t.shared).suspend = true) :
    ∃ es, t.trace = s.trace ++ es ∧ es.countP (Event.startsOn q) + readies q t ≤ readies q s := by
  obtain ⟨p, d, ho⟩ := ordered q hr
  cases view q hr h with
  | stutter hf hs he =>
    obtain ⟨es, he, hn⟩ := he
    refine ⟨es, he, ?_⟩
    rw [startsOn_filter q es hn]
    simp only [readies, hf.countP_eq]
    omega
  | step a b rest es ha hb he hq =>
    refine ⟨es, he, ?_⟩
    simp only [readies, ha.countP_eq, hb.countP_eq, List.countP_append]
    generalize ser q s.shared = x at *
    generalize hy : ser q t.shared = y at *
    cases hq with
    | start j _ n hj => simp [Event.startsOn, Phase.isReady, hj]
    | finish => simp [Event.startsOn, Phase.isReady]
    | next _ j js hs => simp [hs] at h1
    | stop => simp
    | now _ j hj hn hs => simp [hs] at h1
    | later => simp [Event.startsOn]
    | suspend => simp
    | resumeOnly => simp at h2
    | resumeNext => simp at h2

theorem readies_le {q n s} (hr : Reachable n s) : readies q s ≤ 1 := by
  obtain ⟨p, d, ho⟩ := ordered q hr
  rw [readies, ho.flight]
  cases p with
  | none => simp
  | some p => cases p <;> simp [Phase.isReady]

/-- Nobody can resume the queue. -/
def NoResume (q : Nat) (s : State) : Prop := Thread.serialResume q ∉ s.threads

theorem noResume_step {q s t} (h : Step s t) (hn : NoResume q s) :
    NoResume q t ∨ t.trace = s.trace ++ [.resumeCalled q] := by
  rcases h with h | h
  · left
    cases h with
    | thread l th r es sh th' ht hl =>
      intro hm
      have : Thread.serialResume q ≠ th' := by rintro rfl; cases hl
      apply hn; rw [ht]; simp [this] at hm ⊢; tauto
    | poolNotify l h r ts ht hw =>
      intro hm
      rw [wakes_mem (by simp) (by simp) hw] at hm
      have : Thread.serialResume q ≠ h.thread := by cases h <;> simp [Home.thread]
      apply hn; rw [ht]; simp [this] at hm ⊢; tauto
    | timedNotify l e r ts ht hw =>
      intro hm
      rw [wakes_mem (by simp [Thread.timedAsleep]) (by simp) hw] at hm
      apply hn; rw [ht]; simp at hm ⊢; tauto
  · cases h with
    | call c hc =>
      by_cases hq : c.thread s.next = .serialResume q
      · right
        cases c <;> simp [Call.thread] at hq
        subst hq; rfl
      · left
        intro hm
        simp at hm
        rcases hm with hm | hm
        · exact hn hm
        · exact hq hm.symm
    | newQueue => exact .inl hn
    | tick => exact .inl hn
    | spuriousPool l r ht =>
      left; intro hm; apply hn; rw [ht]; simp at hm ⊢; exact hm
    | spuriousTimed l th r ht ha =>
      left; intro hm; apply hn; rw [ht]; simp at hm ⊢; tauto

theorem local_keep {q s th es s' th'} (h : Local s th es s' th') (hn : th ≠ .serialResume q) (hs : (ser q s).suspend = true) :
    (ser q s').suspend = true := by
  have key : ∀ {q' x y}, s.serial[q']? = some x → (q' = q → x.suspend = true → y.suspend = true) →
      (ser q (s.setSerial q' y)).suspend = true := by
    intro q' x y hx hy
    rw [ser_setSerial hx]
    split
    · next e => subst e; rw [ser_of hx] at hs; exact hy rfl hs
    · exact hs
  cases h with
  | continueNext q' x k js hq hs' hk => exact key hq (by simp)
  | continueStop q' x hq hs' => exact key hq (by simp)
  | serialNow q' x j hq => exact key hq (by simp)
  | serialLater q' x k hq => exact key hq (by simp)
  | suspend q' x hq => exact key hq (by simp)
  | resumeOnly q' x hq hs' => exact key hq (fun e => by subst e; simp at hn)
  | resumeNext q' x k js hq hs' he hk => exact key hq (fun e => by subst e; simp at hn)
  | _ => exact hs

theorem keep_step {q s t} (h : Step s t) (hn : NoResume q s) (hs : (ser q s.shared).suspend = true) :
    (ser q t.shared).suspend = true := by
  rcases h with h | h
  · cases h with
    | thread l th r es sh th' ht hl => exact local_keep hl (by rintro rfl; exact hn (by simp [ht])) hs
    | poolNotify => exact hs
    | timedNotify => exact hs
  · cases h with
    | newQueue =>
      simp only [ser, List.getElem?_append] at hs ⊢
      split
      · exact hs
      · next h => rw [List.getElem?_eq_none (by omega)] at hs; simp at hs
    | _ => exact hs

/-- From a suspended state on, if nobody resumes. -/
theorem suspended_run {q n s t} (hr : Reachable n s) (h : Steps s t) (hn : NoResume q s) (hs : (ser q s.shared).suspend = true)
    (he : ∀ es, t.trace = s.trace ++ es → .resumeCalled q ∉ es) :
    ∃ es, t.trace = s.trace ++ es ∧ es.countP (Event.startsOn q) + readies q t ≤ readies q s ∧
      NoResume q t ∧ (ser q t.shared).suspend = true := by
  induction h with
  | refl => exact ⟨[], by simp, by simp, hn, hs⟩
  | @step b c h1 h2 ih =>
    have hb : Reachable n b := Steps.trans hr h1
    obtain ⟨es2, he2⟩ : ∃ es2, c.trace = b.trace ++ es2 := by
      rcases step_trace h2 with e | ⟨e, he⟩
      · exact ⟨[], by simp [e]⟩
      · exact ⟨[e], he⟩
    obtain ⟨es, g1, g2, g3, g4⟩ := ih (by
      intro es hes hm
      exact he (es ++ es2) (by rw [he2, hes]; simp) (by simp [hm]))
    have g5 := keep_step h2 g3 g4
    obtain ⟨es', k1, k2⟩ := suspended_step hb h2 g4 g5
    refine ⟨es ++ es', by rw [k1, g1]; simp, by simp; omega, ?_, g5⟩
    rcases noResume_step h2 g3 with h | h
    · exact h
    · exfalso
      refine he (es ++ es') (by rw [k1, g1]; simp) ?_
      rw [h] at k1
      have : es' = [.resumeCalled q] := (List.append_cancel_left k1).symm
      simp [this]

theorem inCall_zero {k ts} (h : inCall k ts = 0) : ∀ th ∈ ts, th.call? ≠ some k := by
  intro th hm hc
  have := total_mem (f := fun t => if t.call? = some k then 1 else 0) hm
  simp [hc] at this
  simp only [inCall, total] at h this
  omega

/-- Calls of `suspend` in progress have not locked the queue. -/
def OnlyLock (q : Nat) (ts : List Thread) : Prop := ∀ th ∈ ts, th.call? = some (.suspend q) → th = .serialSuspend q

/-- The first return of `suspend` comes after the queue is suspended. -/
theorem suspend_takes {q n s t} (hr : Reachable n s) (h : Steps s t) (hd : CallsDone q s.trace)
    (he : ∀ es, t.trace = s.trace ++ es → .resumeCalled q ∉ es) :
    NoResume q t ∧ ((ser q t.shared).suspend = true ∨
      (OnlyLock q t.threads ∧ ∀ es, t.trace = s.trace ++ es → .suspended q ∉ es)) := by
  have p1 := pending hr (.suspend q)
  have p2 := pending hr (.resume q)
  rw [hd.1] at p1
  rw [hd.2] at p2
  have z1 := inCall_zero (k := .suspend q) (ts := s.threads) (by omega)
  have z2 := inCall_zero (k := .resume q) (ts := s.threads) (by omega)
  induction h with
  | refl =>
    refine ⟨fun hm => z2 _ hm rfl, .inr ⟨fun th hm hc => absurd hc (z1 th hm), ?_⟩⟩
    intro es hes
    have : es = [] := by simpa using hes
    simp [this]
  | @step b c h1 h2 ih =>
    obtain ⟨es1, he1⟩ := steps_trace h1
    obtain ⟨es2, he2⟩ : ∃ es2, c.trace = b.trace ++ es2 := by
      rcases step_trace h2 with e | ⟨e, he⟩
      · exact ⟨[], by simp [e]⟩
      · exact ⟨[e], he⟩
    obtain ⟨g1, g2⟩ := ih (by
      intro es hes hm
      exact he (es ++ es2) (by rw [he2, hes]; simp) (by simp [hm]))
    refine ⟨?_, ?_⟩
    · rcases noResume_step h2 g1 with h | h
      · exact h
      · exfalso
        refine he (es1 ++ es2) (by rw [he2, ← he1]; simp) ?_
        rw [h] at he2
        have : es2 = [.resumeCalled q] := (List.append_cancel_left he2).symm
        simp [this]
    · rcases g2 with g2 | ⟨g2, g3⟩
      · exact .inl (keep_step h2 g1 g2)
      · have g3 := g3 es1 he1.symm
        have fin : OnlyLock q c.threads → (c.trace = b.trace ++ es2 → .suspended q ∉ es2) →
            OnlyLock q c.threads ∧ ∀ es, c.trace = s.trace ++ es → .suspended q ∉ es := by
          intro k1 k2
          refine ⟨k1, fun es hes => ?_⟩
          have : es = es1 ++ es2 := by
            have : s.trace ++ es = s.trace ++ (es1 ++ es2) := by rw [← hes, he2, ← he1]; simp
            exact List.append_cancel_left this
          subst this
          simp [g3, k2 he2]
        rcases h2 with h2 | h2
        · cases h2 with
          | thread l th r es sh th' ht hl =>
            by_cases e : th = .serialSuspend q
            · subst e
              left
              cases hl with
              | suspend q x hq => simp [ser_setSerial hq]
            · right
              have hth : th.call? ≠ some (.suspend q) := fun hc => e (g2 th (by simp [ht]) hc)
              refine fin ?_ ?_
              · intro d hm hc
                have : d ≠ th' := by
                  rintro rfl
                  cases hl with
                  | suspend q' x => simp [Thread.call?] at hc; exact e (by rw [hc])
                  | poolPush j h => cases h <;> simp_all [Thread.call?]
                  | _ => simp_all [Thread.call?]
                exact g2 d (by rw [ht]; simp [this] at hm ⊢; tauto) hc
              · intro heq
                have : es2 = es := (List.append_cancel_left heq).symm
                subst this
                cases hl with
                | ret k => cases k <;> simp [Ret.event] <;> (rintro rfl; exact absurd rfl hth)
                | _ => simp
          | poolNotify l h r ts ht hw =>
            right
            refine fin ?_ ?_
            · intro d hm hc
              rcases wakes_old hw hm with hm | rfl
              · simp only [List.mem_append, List.mem_cons] at hm
                rcases hm with hm | rfl | hm
                · exact g2 d (by rw [ht]; simp [hm]) hc
                · exfalso
                  have : (Thread.poolNotify h).call? = some (.suspend q) := by
                    cases h <;> simp_all [Thread.call?, Home.thread]
                  simpa using g2 _ (by rw [ht]; simp) this
                · exact g2 d (by rw [ht]; simp [hm]) hc
              · simp [Thread.call?] at hc
            · intro heq
              have : es2 = [] := by simpa using heq
              simp [this]
          | timedNotify l e r ts ht hw =>
            right
            refine fin ?_ ?_
            · intro d hm hc
              rcases wakes_old hw hm with hm | rfl
              · have : d ≠ .ret (.async e) := by rintro rfl; simp [Thread.call?] at hc
                exact g2 d (by rw [ht]; simp [this] at hm ⊢; tauto) hc
              · simp [Thread.call?] at hc
            · intro heq
              have : es2 = [] := by simpa using heq
              simp [this]
        · right
          cases h2 with
          | call k hc =>
            refine fin ?_ ?_
            · intro d hm hd
              simp only [List.mem_append, List.mem_singleton] at hm
              rcases hm with hm | rfl
              · exact g2 d hm hd
              · cases k <;> simp [Call.thread, Thread.call?] at hd ⊢
                exact hd
            · intro heq
              have : es2 = [k.event b.next] := (List.append_cancel_left heq).symm
              subst this
              cases k <;> simp [Call.event]
          | newQueue => exact fin g2 (fun heq => by have : es2 = [] := by simpa using heq
                                                    simp [this])
          | tick => exact fin g2 (fun heq => by have : es2 = [] := by simpa using heq
                                                simp [this])
          | spuriousPool l r ht =>
            refine fin ?_ (fun heq => by have : es2 = [] := by simpa using heq
                                         simp [this])
            intro d hm hd
            have : d ≠ .poolCheck := by rintro rfl; simp [Thread.call?] at hd
            exact g2 d (by rw [ht]; simp [this] at hm ⊢; tauto) hd
          | spuriousTimed l th r ht ha =>
            refine fin ?_ (fun heq => by have : es2 = [] := by simpa using heq
                                         simp [this])
            intro d hm hd
            have : d ≠ .timedCheck := by rintro rfl; simp [Thread.call?] at hd
            exact g2 d (by rw [ht]; simp [this] at hm ⊢; tauto) hd

end Verif.Task
