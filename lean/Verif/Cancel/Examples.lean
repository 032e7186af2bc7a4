import Verif.Cancel.Props
/-! Histories that meet the conditions of the theorems, and those the code does not handle as documented. -/
namespace Verif.Cancel

/-- The first node with an address, taken out. -/
def takeOut (t : Nat) : List Node → Option (Node × List Node)
  | [] => none
  | n :: l => if n.addr = t then some (n, l) else (takeOut t l).map fun (m, r) => (m, n :: r)

theorem takeOut_some {t l m r} (h : takeOut t l = some (m, r)) :
    ∃ a b, l = a ++ m :: b ∧ r = a ++ b ∧ m.addr = t ∧ ∀ x ∈ a, x.addr ≠ t := by
  induction l generalizing r with
  | nil => simp [takeOut] at h
  | cons n l ih =>
    simp only [takeOut] at h
    split at h
    · next hn => simp at h; obtain ⟨rfl, rfl⟩ := h; exact ⟨[], _, rfl, rfl, hn, by simp⟩
    · next hn =>
      simp only [Option.map_eq_some_iff] at h
      obtain ⟨⟨m', r'⟩, h1, h2⟩ := h
      simp at h2
      obtain ⟨rfl, rfl⟩ := h2
      obtain ⟨a, b, rfl, rfl, h3, h4⟩ := ih h1
      exact ⟨n :: a, b, rfl, rfl, h3, by simpa [hn] using h4⟩

theorem takeOut_none {t l} (h : takeOut t l = none) : ∀ x ∈ l, x.addr ≠ t := by
  induction l with
  | nil => simp
  | cons n l ih =>
    simp only [takeOut] at h
    split at h
    · simp at h
    · next hn =>
      simp at h
      simpa [hn] using ih h

/-- One step of call `k`; `throws`: if it is in a callback, the callback throws. -/
def stepThread (k : Nat) (throws : Bool) (s : Shared) : Thread → Option (List Event × Shared × Thread)
  | .cancelLock => if s.canceled = none then some ([], { canceled := some k, list := [] }, .cancelNext [] s.list) else some ([], s, .cancelNext [] [])
  | .cancelNext _ [] => some ([.cancelReturned k], s, .done)
  | .cancelNext old (n :: rest) => some ([.started n.fn k], s, .cancelRun old n rest)
  | .cancelRun old n rest =>
    if throws then some ([.threw n.fn k (rest.map Node.fn)], s, .done) else some ([.finished n.fn k], s, .cancelNext (old ++ [n]) rest)
  | .regLock n =>
    if s.canceled = none then some ([], { s with list := n :: s.list }, .regRet (some ((n :: s.list).getLast (by simp)).addr))
    else some ([], s, .regCall n)
  | .regCall n => some ([.started n.fn k], s, .regRun n)
  | .regRun n => if throws then some ([.threw n.fn k []], s, .done) else some ([.finished n.fn k], s, .regRet none)
  | .regRet t => some ([.regReturned k t], s, .done)
  | .deregLock t =>
    match takeOut t s.list with
    | some (n, r) => some ([.removed k n.fn], { s with list := r }, .deregRet)
    | none => some ([], s, .deregRet)
  | .deregRet => some ([.deregReturned k], s, .done)
  | .askRead => some ([], s, .askRet s.canceled.isSome)
  | .askRet b => some ([.answered k b], s, .done)
  | _ => none

theorem stepThread_local {k b s th es s' th'} (h : stepThread k b s th = some (es, s', th')) : Local k s th es s' th' := by
  unfold stepThread at h
  split at h
  · split at h
    · next hc => simp at h; obtain ⟨rfl, rfl, rfl⟩ := h; exact .cancelFirst _ hc
    · next hc => simp at h; obtain ⟨rfl, rfl, rfl⟩ := h; exact .cancelAgain _ hc
  · simp at h; obtain ⟨rfl, rfl, rfl⟩ := h; exact .cancelRet _ _
  · simp at h; obtain ⟨rfl, rfl, rfl⟩ := h; exact .cancelStart _ _ _ _
  · split at h <;> simp at h <;> obtain ⟨rfl, rfl, rfl⟩ := h
    · exact .cancelThrow _ _ _ _
    · exact .cancelFinish _ _ _ _
  · split at h
    · next hc => simp at h; obtain ⟨rfl, rfl, rfl⟩ := h; exact .regIn _ _ hc
    · next hc => simp at h; obtain ⟨rfl, rfl, rfl⟩ := h; exact .regOut _ _ hc
  · simp at h; obtain ⟨rfl, rfl, rfl⟩ := h; exact .regStart _ _
  · split at h <;> simp at h <;> obtain ⟨rfl, rfl, rfl⟩ := h
    · exact .regThrow _ _
    · exact .regFinish _ _
  · simp at h; obtain ⟨rfl, rfl, rfl⟩ := h; exact .regRet _ _
  · split at h
    · next n r hm =>
      simp at h; obtain ⟨rfl, rfl, rfl⟩ := h
      obtain ⟨a, b, h1, h2, h3, h4⟩ := takeOut_some hm
      subst h2
      exact .deregFound _ _ a n b h1 h3 h4
    · next hm => simp at h; obtain ⟨rfl, rfl, rfl⟩ := h; exact .deregNone _ _ (takeOut_none hm)
  · simp at h; obtain ⟨rfl, rfl, rfl⟩ := h; exact .deregRet _
  · simp at h; obtain ⟨rfl, rfl, rfl⟩ := h; exact .askRead _
  · simp at h; obtain ⟨rfl, rfl, rfl⟩ := h; exact .askRet _ _
  · simp at h

/-- What happens next: a call (the node of a registration gets the number of the call as address), a step, an exception. -/
inductive Act
  | register
  | cancel
  | deregister (t : Nat)
  | ask
  | run (k : Nat)
  | throw (k : Nat)

def callOf (s : State) : Act → Option Call
  | .register => some (.register s.next)
  | .cancel => some .cancel
  | .deregister t => some (.deregister t)
  | .ask => some .ask
  | _ => none

def runOf : Act → Option (Nat × Bool)
  | .run k => some (k, false)
  | .throw k => some (k, true)
  | _ => none

def act (s : State) (a : Act) : Option State :=
  match callOf s a with
  | some c => some { s with threads := s.setThread s.next (c.thread s.next), next := s.next + 1, trace := s.trace ++ [c.event s.next] }
  | none =>
    match runOf a with
    | none => none
    | some (k, b) =>
      match stepThread k b s.shared (s.threads k) with
      | none => none
      | some (es, sh, th') => some { s with shared := sh, threads := s.setThread k th', trace := s.trace ++ es }

def acts (s : State) : List Act → Option State
  | [] => some s
  | a :: as => (act s a).bind (acts · as)

/-- All nodes have an address below the number of the next call. -/
def Low (s : State) : Prop := (∀ n ∈ s.shared.list, n.addr < s.next) ∧ ∀ k, ∀ n ∈ (s.threads k).nodes, n.addr < s.next

theorem act_step {s a t} (hl : Low s) (h : act s a = some t) : Step s t ∧ Low t := by
  obtain ⟨l1, l2⟩ := hl
  unfold act at h
  split at h
  · next c hc =>
    simp at h; subst h
    have hv : c.valid s := by
      cases a <;> simp [callOf] at hc <;> subst hc <;> simp [Call.valid]
      exact ⟨fun n hn => by have := l1 n hn; omega, fun k n hn => by have := l2 k n hn; omega⟩
    refine ⟨.call s c hv, fun n hn => by have := l1 n hn; simp; omega, fun k n hn => ?_⟩
    simp only [State.setThread] at hn
    split at hn
    · cases a <;> simp [callOf] at hc <;> subst hc <;> simp [Call.thread, Thread.nodes] at hn
      subst hn; simp
    · have := l2 k n hn; simp; omega
  · split at h
    · simp at h
    · next k b _ =>
      split at h
      · simp at h
      · next es sh th' hs =>
        simp at h; subst h
        have hloc := stepThread_local hs
        refine ⟨.thread s k _ es sh th' rfl hloc, ?_⟩
        have l2k := l2 k
        generalize hth : s.threads k = th at *
        constructor
        · cases hloc <;> simp_all [Thread.nodes]
          intro n hn
          exact l1 n (by tauto)
        · intro i n hn
          simp only [State.setThread] at hn
          split at hn
          · cases hloc <;> simp_all [Thread.nodes]
          · exact l2 i n hn

theorem acts_reach {as s} (h : acts initial as = some s) : Reachable s := by
  have key : ∀ {as a b}, Low a → acts a as = some b → Steps a b := by
    intro as
    induction as with
    | nil => intro a b _ h; simp [acts] at h; subst h; exact .refl _
    | cons x as ih =>
      intro a b hl h
      simp only [acts, Option.bind_eq_some_iff] at h
      obtain ⟨u, h1, h2⟩ := h
      obtain ⟨g1, g2⟩ := act_step hl h1
      exact Steps.trans (.step (.refl _) g1) (ih g2 h2)
  exact key (by simp [Low, initial, Thread.nodes]) h

theorem acts_trace {as tr} (h : (acts initial as).map (fun s => s.trace) = some tr) : ∃ s, Reachable s ∧ s.trace = tr := by
  cases h' : acts initial as with
  | none => simp [h'] at h
  | some s => simp [h'] at h; exact ⟨s, acts_reach h', h⟩

/-- The first calls are over, the others have not begun. -/
theorem acts_quiet {as tr} (h : (acts initial as).map (fun s => (s.trace, (List.range s.next).all (fun k => s.threads k == .done))) = some (tr, true)) :
    ∃ s, Reachable s ∧ s.trace = tr ∧ Quiet s := by
  cases h' : acts initial as with
  | none => simp [h'] at h
  | some s =>
    simp [h'] at h
    have hr := acts_reach h'
    refine ⟨s, hr, h.1, fun k es sh th' hl => ?_⟩
    by_cases hk : k < s.next
    · rw [h.2 k hk] at hl; cases hl
    · rw [(inv hr).fresh k (by omega)] at hl; cases hl

/-- Two callbacks; the second (call 1) is deregistered with the token its registration returned; then `cancel`. -/
def twoCallbacks : List Act :=
  [.register, .run 0, .run 0, .register, .run 1, .run 1, .deregister 0, .run 2, .run 2, .cancel, .run 3, .run 3, .run 3, .run 3]

theorem twoCallbacks_trace : (acts initial twoCallbacks).map (fun s => (s.trace, (List.range s.next).all (fun k => s.threads k == .done))) =
    some ([.regCalled 0, .regReturned 0 (some 0), .regCalled 1, .regReturned 1 (some 0), .deregCalled 2 0, .removed 2 0, .deregReturned 2,
      .cancelCalled 3, .started 1 3, .finished 1 3, .cancelReturned 3], true) := by decide +kernel

/-- C74 is false of the code: the callback of call 1 is deregistered with the registration returned to it and runs nevertheless,
and the callback of call 0, which nobody deregistered, does not run. -/
theorem C74_deregister_violated : ∃ s f g a d c t1 t2 t3 t4, Reachable s ∧ Quiet s ∧ f ≠ g ∧
    s.trace = t1 ++ .regReturned f (some a) :: t2 ++ .deregCalled d a :: t3 ++ .deregReturned d :: t4 ∧
    (∀ d' a', .deregCalled d' a' ∈ s.trace → d' = d) ∧ .cancelCalled c ∈ t4 ∧ (∀ c', .cancelCalled c' ∉ t1 ++ t2 ++ t3) ∧
    starts f s.trace = 1 ∧ .regCalled g ∈ t1 ∧ starts g s.trace = 0 := by
  obtain ⟨s, hr, ht, hq⟩ := acts_quiet twoCallbacks_trace
  refine ⟨s, 1, 0, 0, 2, 3, [.regCalled 0, .regReturned 0 (some 0), .regCalled 1], [], [.removed 2 0],
    [.cancelCalled 3, .started 1 3, .finished 1 3, .cancelReturned 3], hr, hq, by decide, ht, ?_, by simp, by simp, ?_⟩
  · rw [ht]; simp
  · rw [ht]; decide

/- C74: the conditions of `C74_first_deregister_partial` hold in a history with two callbacks, the first of which is deregistered -/
example : ∃ s t1 t2 t3, Reachable s ∧ s.trace = t1 ++ .regReturned 0 (some 0) :: t2 ++ .deregReturned 2 :: t3 ∧
    (∀ g, .regCalled g ∈ t1 → g = 0) ∧ .deregCalled 2 0 ∈ t2 ∧ (∀ c, .cancelCalled c ∈ t1 ++ t2 → False) ∧ starts 1 s.trace = 1 := by
  obtain ⟨s, hr, ht, _⟩ := acts_quiet twoCallbacks_trace
  refine ⟨s, [.regCalled 0], [.regCalled 1, .regReturned 1 (some 0), .deregCalled 2 0, .removed 2 0],
    [.cancelCalled 3, .started 1 3, .finished 1 3, .cancelReturned 3], hr, ht, by simp, by simp, by simp, ?_⟩
  rw [ht]; decide

/- C73: one deregistration, one callback that does not run -/
example : ∃ s, Reachable s ∧ Quiet s ∧ (∃ c, .cancelCalled c ∈ s.trace) ∧ (∀ e ∈ s.trace, e.isThrow = false) ∧ [0].Nodup ∧
    (∀ f ∈ [0], .regCalled f ∈ s.trace ∧ starts f s.trace = 0) ∧ s.trace.countP Event.isDeregCall = 1 := by
  obtain ⟨s, hr, ht, hq⟩ := acts_quiet twoCallbacks_trace
  refine ⟨s, hr, hq, ⟨3, by rw [ht]; simp⟩, ?_, by simp, ?_, ?_⟩ <;> rw [ht] <;> decide

/-- Two callbacks, `cancel`, and another registration. -/
def plain : List Act :=
  [.ask, .run 0, .run 0, .register, .run 1, .run 1, .register, .run 2, .run 2, .cancel, .run 3, .run 3, .run 3, .run 3, .run 3, .run 3,
   .register, .run 4, .run 4, .run 4, .run 4, .ask, .run 5, .run 5]

theorem plain_trace : (acts initial plain).map (fun s => s.trace) =
    some [.askCalled 0, .answered 0 false, .regCalled 1, .regReturned 1 (some 1), .regCalled 2, .regReturned 2 (some 1), .cancelCalled 3,
      .started 2 3, .finished 2 3, .started 1 3, .finished 1 3, .cancelReturned 3, .regCalled 4, .started 4 4, .finished 4 4,
      .regReturned 4 none, .askCalled 5, .answered 5 true] := by decide +kernel

/- C72, C73, C75: the conditions hold here -/
example : ∃ s t1 t2 t3 u1 u2 v1 v2, Reachable s ∧
    s.trace = t1 ++ .cancelCalled 3 :: t2 ++ .cancelReturned 3 :: t3 ∧ (∀ c', .cancelCalled c' ∈ t1 ++ t2 → False) ∧
    (∀ d a, .deregCalled d a ∈ t1 ++ t2 → False) ∧ .regReturned 1 (some 1) ∈ t1 ∧
    s.trace = u1 ++ .regCalled 4 :: [.started 4 4, .finished 4 4] ++ .regReturned 4 none :: u2 ∧ .cancelReturned 3 ∈ u1 ∧
    s.trace = v1 ++ .askCalled 5 :: v2 ∧ .answered 5 true ∈ v2 ∧ .cancelReturned 3 ∈ v1 := by
  obtain ⟨s, hr, ht⟩ := acts_trace plain_trace
  refine ⟨s, [.askCalled 0, .answered 0 false, .regCalled 1, .regReturned 1 (some 1), .regCalled 2, .regReturned 2 (some 1)],
    [.started 2 3, .finished 2 3, .started 1 3, .finished 1 3],
    [.regCalled 4, .started 4 4, .finished 4 4, .regReturned 4 none, .askCalled 5, .answered 5 true],
    [.askCalled 0, .answered 0 false, .regCalled 1, .regReturned 1 (some 1), .regCalled 2, .regReturned 2 (some 1), .cancelCalled 3,
      .started 2 3, .finished 2 3, .started 1 3, .finished 1 3, .cancelReturned 3], [.askCalled 5, .answered 5 true],
    [.askCalled 0, .answered 0 false, .regCalled 1, .regReturned 1 (some 1), .regCalled 2, .regReturned 2 (some 1), .cancelCalled 3,
      .started 2 3, .finished 2 3, .started 1 3, .finished 1 3, .cancelReturned 3, .regCalled 4, .started 4 4, .finished 4 4,
      .regReturned 4 none], [.answered 5 true], hr, ht, by simp, by simp, by simp, ht, by simp, ht, by simp, by simp⟩

/-- A second call of `cancel` while the first runs the callbacks. -/
def twoCancels : List Act := [.register, .run 0, .run 0, .cancel, .run 1, .cancel, .run 2, .run 2]

/-- C73: `cancel` may return before the callbacks have run, if another call of `cancel` is running them (or going to). -/
theorem C73_second_cancel_violated : ∃ s f c tok t1 t2 t3, Reachable s ∧ s.trace = t1 ++ .cancelCalled c :: t2 ++ .cancelReturned c :: t3 ∧
    .regReturned f tok ∈ t1 ∧ (∀ d a, .deregCalled d a ∉ s.trace) ∧ starts f s.trace = 0 := by
  obtain ⟨s, hr, ht⟩ := acts_trace (as := twoCancels) (tr := [.regCalled 0, .regReturned 0 (some 0), .cancelCalled 1, .cancelCalled 2,
    .cancelReturned 2]) (by decide +kernel)
  refine ⟨s, 0, 2, some 0, [.regCalled 0, .regReturned 0 (some 0), .cancelCalled 1], [], [], hr, ht, by simp, by rw [ht]; simp, ?_⟩
  rw [ht]; decide

/-- A callback throws. -/
def throwing : List Act := [.register, .run 0, .run 0, .register, .run 1, .run 1, .cancel, .run 2, .run 2, .throw 2, .cancel, .run 3, .run 3]

/-- C73: an exception in one callback keeps the others from running, also when `cancel` is called again. -/
theorem C73_throw_violated : ∃ s f c, Reachable s ∧ Quiet s ∧ .regCalled f ∈ s.trace ∧ .cancelReturned c ∈ s.trace ∧
    (∀ d a, .deregCalled d a ∉ s.trace) ∧ starts f s.trace = 0 := by
  obtain ⟨s, hr, ht, hq⟩ := acts_quiet (as := throwing) (tr := [.regCalled 0, .regReturned 0 (some 0), .regCalled 1, .regReturned 1 (some 0),
    .cancelCalled 2, .started 1 2, .threw 1 2 [0], .cancelCalled 3, .cancelReturned 3]) (by decide +kernel)
  refine ⟨s, 0, 3, hr, hq, by rw [ht]; simp, by rw [ht]; simp, by rw [ht]; simp, ?_⟩
  rw [ht]; decide

end Verif.Cancel
