import Verif.Cancel.Hist
/-! The properties C72–C75 of cancellation tokens. -/
namespace Verif.Cancel

theorem steps_reach {s t : State} (h : Reachable s) (h2 : Steps s t) : Reachable t := Steps.trans h h2

/-- The step that emits an event. -/
theorem steps_event {i s : State} (h : Steps i s) {t1 t2 : List Event} {e : Event} (ht : s.trace = t1 ++ e :: t2)
    (hl : i.trace.length ≤ t1.length) : ∃ a b, Steps i a ∧ a.trace = t1 ∧ Step a b ∧ b.trace = t1 ++ [e] ∧ Steps b s := by
  induction h generalizing t2 with
  | refl => rw [ht] at hl; simp at hl; omega
  | @step b c h1 h2 ih =>
    rcases step_trace h2 with he | ⟨e', he⟩
    · rw [he] at ht
      obtain ⟨x, y, g1, g2, g3, g4, g5⟩ := ih ht
      exact ⟨x, y, g1, g2, g3, g4, .step g5 h2⟩
    · rcases List.eq_nil_or_concat t2 with rfl | ⟨t2', e2, rfl⟩
      · rw [he] at ht
        have := List.append_inj' ht rfl
        exact ⟨b, c, h1, this.1, h2, by rw [he, ht], .refl _⟩
      · rw [he, List.concat_eq_append, ← List.cons_append, ← List.append_assoc] at ht
        have := List.append_inj' ht rfl
        obtain ⟨x, y, g1, g2, g3, g4, g5⟩ := ih this.1
        exact ⟨x, y, g1, g2, g3, g4, .step g5 h2⟩

theorem reach_event {s : State} (h : Reachable s) {t1 t2 : List Event} {e : Event} (ht : s.trace = t1 ++ e :: t2) :
    ∃ a b, Reachable a ∧ a.trace = t1 ∧ Step a b ∧ b.trace = t1 ++ [e] ∧ Steps b s :=
  steps_event h ht (by simp [initial])

theorem reg_event {a b : State} (h : Step a b) {f} (he : b.trace = a.trace ++ [.regCalled f]) : f = a.next := by
  cases h with
  | call c => cases c <;> simp [Call.event] at he; exact he.symm
  | thread k th es sh th' hk hl => cases hl <;> simp at he

theorem mem_starts {f k tr} (h : .started f k ∈ tr) : 1 ≤ starts f tr :=
  List.one_le_countP_iff.mpr ⟨_, h, by simp [Event.isStart]⟩

theorem mem_regs {f tr} (h : .regCalled f ∈ tr) : 1 ≤ regs f tr :=
  List.one_le_countP_iff.mpr ⟨_, h, by simp [Event.isReg]⟩

theorem regs_mem {f tr} (h : 1 ≤ regs f tr) : .regCalled f ∈ tr := by
  obtain ⟨e, he, h1⟩ := List.one_le_countP_iff.mp h
  cases e <;> simp [Event.isReg] at h1
  subst h1; exact he

/-- C72.  A callback runs at most once. -/
theorem C72_at_most_once {s} (h : Reachable s) (f : Nat) : starts f s.trace ≤ 1 := by
  have h1 := (inv h).place f
  have h2 := (inv h).one f
  omega

/-- A callback starts only when `canceled` is set. -/
theorem start_canceled {s : State} (hs : Reachable s) : (∃ f k, .started f k ∈ s.trace) → s.shared.canceled ≠ none := by
  unfold Reachable at hs
  generalize ha : initial = a at hs
  induction hs with
  | refl => subst ha; simp [initial]
  | @step u v hu h2 ih =>
    subst ha
    have iu := inv (show Reachable u from hu)
    have hh := hist (show Reachable u from hu)
    cases h2 with
    | call c hv =>
      clear iu hh
      cases c <;> simp only [Call.event] <;> grind
    | thread k th es sh th' hk hl =>
      have a := iu.reg k
      have b := hh.canc k
      clear iu hh
      cases hl <;> simp at ih ⊢ <;> grind

/-- C72.  … only after it was registered and after a call of `cancel`. -/
theorem C72_not_before_cancel {s} (h : Reachable s) {f k t1 t2} (ht : s.trace = t1 ++ .started f k :: t2) :
    .regCalled f ∈ t1 ∧ ∃ c, .cancelCalled c ∈ t1 := by
  obtain ⟨s1, g1, g2, _⟩ := reach_prefix h (t1 := t1 ++ [.started f k]) ⟨t2, by simp [ht]⟩
  have h1 := (inv g1).place f
  have h3 : 1 ≤ starts f s1.trace := mem_starts (k := k) (by rw [g2]; simp)
  constructor
  · have : .regCalled f ∈ s1.trace := regs_mem (by omega)
    rw [g2] at this; simpa using this
  · obtain ⟨c, hc⟩ := Option.ne_none_iff_exists'.mp (start_canceled g1 ⟨f, k, by rw [g2]; simp⟩)
    refine ⟨c, ?_⟩
    have := ((inv g1).who c hc).1
    rw [g2] at this; simpa using this

/-- C72.  If `register_callback` returns null, the callback has run in this call. -/
theorem C72_null_has_run {s} (h : Reachable s) {f t1 t2} (ht : s.trace = t1 ++ .regReturned f none :: t2) : .finished f f ∈ t1 := by
  obtain ⟨s1, g1, g2, _⟩ := reach_prefix h (t1 := t1 ++ [.regReturned f none]) ⟨t2, by simp [ht]⟩
  have := (hist g1).null f (by rw [g2]; simp)
  rw [g2] at this; simpa using this

theorem canceled_step {s t : State} (h : Step s t) (hc : s.shared.canceled ≠ none) : t.shared.canceled ≠ none := by
  cases h with
  | call => exact hc
  | thread k th es sh th' hk hl => cases hl <;> simp_all

theorem canceled_steps {s t : State} (h : Steps s t) (hc : s.shared.canceled ≠ none) : t.shared.canceled ≠ none := by
  induction h with
  | refl => exact hc
  | step _ h2 ih => exact canceled_step h2 ih

/-- After cancellation, a call that has not begun returns null. -/
theorem late {s t : State} {f} (hs : Reachable s) (h : Steps s t) (hc : s.shared.canceled ≠ none) (hf : s.next ≤ f) :
    ∀ tok, .regReturned f tok ∈ t.trace ∨ t.threads f = .regRet tok → tok = none := by
  induction h with
  | refl =>
    intro tok h
    have i := inv hs
    have h1 := i.fresh f hf
    rw [h1] at h
    simp at h
    have := i.old _ h f (by simp [Event.calls])
    omega
  | @step u v h1 h2 ih =>
    have hu := canceled_steps h1 hc
    cases h2 with
    | call c hv =>
      simp only [State.setThread]
      cases c <;> simp only [Call.event, Call.thread] <;> grind
    | thread k th es sh th' hk hl =>
      simp only [State.setThread]
      cases hl <;> grind

/-- C72.  If `register_callback` is called after a call of `cancel` has returned, the callback has run when it returns. -/
theorem C72_register_after_cancel {s} (h : Reachable s) {c f tok t1 t2 t3} (ht : s.trace = t1 ++ .regCalled f :: t2 ++ .regReturned f tok :: t3)
    (hc : .cancelReturned c ∈ t1) : tok = none ∧ .finished f f ∈ t2 := by
  obtain ⟨s1, s2, g1, g2, g4, g5, g6⟩ := reach_event h (t1 := t1) (e := .regCalled f) (t2 := t2 ++ .regReturned f tok :: t3)
    (by simp [ht])
  have g3 : Steps s1 s := Steps.trans (.step (.refl _) g4) g6
  have hcan := (hist g1).canc c (.inl (by rw [g2]; exact hc))
  have hnew : s1.next ≤ f := by have := reg_event g4 (f := f) (by rw [g5, g2]); omega
  have h1 : tok = none := late g1 g3 hcan hnew tok (.inl (by rw [ht]; simp))
  subst h1
  refine ⟨rfl, ?_⟩
  have := C72_null_has_run h ht
  simp at this
  rcases this with h2 | h2
  · exfalso
    have := (inv g1).old (.finished f f) (by rw [g2]; exact h2) f (by simp [Event.calls])
    omega
  · exact h2

/-! ### cancel calls everything -/

theorem quiet_done {s} (hq : Quiet s) (k : Nat) : s.threads k = .idle ∨ s.threads k = .done := by
  have h := hq k
  cases hk : s.threads k with
  | idle => simp
  | done => simp
  | regLock n =>
    exfalso; rw [hk] at h
    by_cases hc : s.shared.canceled = none
    · exact h _ _ _ (.regIn _ n hc)
    · exact h _ _ _ (.regOut _ n hc)
  | regCall n => exfalso; rw [hk] at h; exact h _ _ _ (.regStart _ n)
  | regRun n => exfalso; rw [hk] at h; exact h _ _ _ (.regFinish _ n)
  | regRet t => exfalso; rw [hk] at h; exact h _ _ _ (.regRet _ t)
  | cancelLock =>
    exfalso; rw [hk] at h
    by_cases hc : s.shared.canceled = none
    · exact h _ _ _ (.cancelFirst _ hc)
    · exact h _ _ _ (.cancelAgain _ hc)
  | cancelNext o r =>
    exfalso; rw [hk] at h
    cases r with
    | nil => exact h _ _ _ (.cancelRet _ o)
    | cons n r => exact h _ _ _ (.cancelStart _ o n r)
  | cancelRun o n r => exfalso; rw [hk] at h; exact h _ _ _ (.cancelFinish _ o n r)
  | deregLock t =>
    exfalso; rw [hk] at h
    by_cases hc : ∃ n ∈ s.shared.list, n.addr = t
    · have hsplit : ∀ l : List Node, (∃ n ∈ l, n.addr = t) → ∃ a n b, l = a ++ n :: b ∧ n.addr = t ∧ ∀ m ∈ a, m.addr ≠ t := by
        intro l
        induction l with
        | nil => simp
        | cons x l ih =>
          intro hx
          by_cases hxt : x.addr = t
          · exact ⟨[], x, l, rfl, hxt, by simp⟩
          · obtain ⟨a, n, b, h1, h2, h3⟩ := ih (by simpa [hxt] using hx)
            exact ⟨x :: a, n, b, by simp [h1], h2, by simp [hxt]; exact h3⟩
      obtain ⟨a, n, b, h1, h2, h3⟩ := hsplit _ hc
      exact h _ _ _ (.deregFound _ t a n b h1 h2 h3)
    · exact h _ _ _ (.deregNone _ t (by simpa using hc))
  | deregRet => exfalso; rw [hk] at h; exact h _ _ _ (.deregRet _)
  | askRead => exfalso; rw [hk] at h; exact h _ _ _ (.askRead _)
  | askRet b => exfalso; rw [hk] at h; exact h _ _ _ (.askRet _ b)

def Event.isRemoved : Event → Bool
  | .removed _ _ => true
  | _ => false

def Thread.isDereg : Thread → Bool
  | .deregLock _ => true
  | _ => false

theorem count_update (n k : Nat) (p q : Nat → Bool) (hk : k < n) (h : ∀ i, i ≠ k → p i = q i) :
    (List.range n).countP p + (if q k then 1 else 0) = (List.range n).countP q + (if p k then 1 else 0) := by
  have same : ∀ m, m ≤ k → (List.range m).countP p = (List.range m).countP q := by
    intro m hm
    apply List.countP_congr
    intro x hx
    simp at hx
    rw [h x (by omega)]
  induction n with
  | zero => omega
  | succ n ih =>
    simp only [List.range_succ, List.countP_append, List.countP_singleton]
    by_cases hkn : k = n
    · subst hkn
      have := same k (by omega)
      omega
    · have := ih (by omega)
      rw [h n (by omega)]
      omega

/-- Number of calls that are about to remove a callback. -/
def deregs (n : Nat) (threads : Nat → Thread) : Nat := (List.range n).countP (fun k => (threads k).isDereg)

theorem deregs_call (s : State) (th : Thread) :
    deregs (s.next + 1) (s.setThread s.next th) = deregs s.next s.threads + (if th.isDereg then 1 else 0) := by
  simp only [deregs, List.range_succ, List.countP_append, List.countP_singleton, State.setThread, if_true]
  congr 1
  apply List.countP_congr
  intro x hx
  simp at hx
  rw [if_neg (by omega)]

theorem deregs_set (s : State) {k : Nat} (hk : k < s.next) (th : Thread) :
    deregs s.next s.threads + (if th.isDereg then 1 else 0) = deregs s.next (s.setThread k th) + (if (s.threads k).isDereg then 1 else 0) := by
  have := count_update s.next k (fun k => (s.threads k).isDereg) (fun i => (s.setThread k th i).isDereg) hk
    (by intro i hi; simp [State.setThread, hi])
  simpa [deregs, State.setThread] using this

theorem removed_le {s} (h : Reachable s) :
    s.trace.countP Event.isRemoved + deregs s.next s.threads ≤ s.trace.countP Event.isDeregCall := by
  unfold Reachable at h
  generalize ha : initial = a at h
  induction h with
  | refl => subst ha; simp [initial, deregs]
  | @step u v hu h2 ih =>
    subst ha
    cases h2 with
    | call c hv =>
      simp only [deregs_call, List.countP_append]
      cases c <;> simp [Call.event, Call.thread, Event.isRemoved, Event.isDeregCall, Thread.isDereg] <;> omega
    | thread k th es sh th' hk hl =>
      have hkn : k < u.next := by
        by_contra hc
        have := (inv hu).fresh k (by omega)
        rw [this] at hk; subst hk; cases hl
      have := deregs_set u hkn th'
      simp only [List.countP_append]
      rw [hk] at this
      cases hl <;> simp [Event.isRemoved, Event.isDeregCall, Thread.isDereg] at this ⊢ <;> omega

/-- C73.  When `cancel` has been called and nothing is in progress any more: if no callback has thrown an exception, then all
registered callbacks have run, except for at most one for each call of `deregister_callback`. -/
theorem C73_all_run {s} (h : Reachable s) (hq : Quiet s) (hc : ∃ c, .cancelCalled c ∈ s.trace) (ht : ∀ e ∈ s.trace, e.isThrow = false)
    {fs : List Nat} (hn : fs.Nodup) (hfs : ∀ f ∈ fs, .regCalled f ∈ s.trace ∧ starts f s.trace = 0) :
    fs.length ≤ s.trace.countP Event.isDeregCall := by
  obtain ⟨c, hc⟩ := hc
  have i := inv h
  have hcan : s.shared.canceled ≠ none := by
    rcases (hist h).pend c hc with h1 | h1
    · exact h1
    · rcases quiet_done hq c with h2 | h2 <;> rw [h2] at h1 <;> simp at h1
  have hrest : (canceler s.shared.canceled s.threads).rest = [] := by
    obtain ⟨c', hc'⟩ := Option.ne_none_iff_exists'.mp hcan
    rw [hc']
    rcases quiet_done hq c' with h2 | h2 <;> simp [canceler, h2, Thread.rest]
  have hg : ∀ f ∈ fs, 1 ≤ gone f s.trace := by
    intro f hf
    obtain ⟨h1, h2⟩ := hfs f hf
    have h3 := i.place f
    have h4 := mem_regs h1
    rw [i.empty hcan, hrest, h2] at h3
    have : (s.threads f).before = 0 := by rcases quiet_done hq f with h2 | h2 <;> simp [h2, Thread.before]
    simp at h3
    omega
  have hsum : ∀ (tr : List Event), (∀ e ∈ tr, e.isThrow = false) → ∀ fs : List Nat, fs.Nodup →
      (fs.map fun f => gone f tr).sum ≤ tr.countP Event.isRemoved := by
    intro tr
    induction tr with
    | nil => simp [gone]
    | cons e tr ih =>
      intro h1 fs hfs
      have ih := ih (fun e he => h1 e (by simp [he])) fs hfs
      have he := h1 e (by simp)
      have e1 : ∀ f, gone f (e :: tr) = Event.gone f e + gone f tr := by intro f; simp [gone]
      simp only [e1, List.sum_map_add, List.countP_cons]
      cases e with
      | removed d g =>
        have : (fs.map fun f => Event.gone f (.removed d g)).sum ≤ 1 := by
          simp only [Event.gone]
          clear ih
          induction fs with
          | nil => simp
          | cons x fs ih2 =>
            simp only [List.nodup_cons] at hfs
            have := ih2 hfs.2
            simp only [List.map_cons, List.sum_cons]
            by_cases hgx : g = x
            · subst hgx
              have : (fs.map fun f => if g = f then 1 else 0).sum = 0 := by
                rw [List.sum_eq_zero]
                intro y hy
                simp at hy
                obtain ⟨a, ha, rfl⟩ := hy
                rw [if_neg]; rintro rfl; exact hfs.1 ha
              simp [this]
            · simp [hgx]; exact this
        simp only [Event.isRemoved, if_true]
        omega
      | threw => simp [Event.isThrow] at he
      | _ => simp [Event.gone, Event.isRemoved]; exact ih
  have h1 := hsum s.trace ht fs hn
  have h2 := removed_le h
  have h3 : fs.length ≤ (fs.map fun f => gone f s.trace).sum := by
    clear h1 hn hfs
    induction fs with
    | nil => simp
    | cons x fs ih =>
      have := ih (fun f hf => hg f (by simp [hf]))
      have := hg x (by simp)
      simp; omega
  omega

/-- C73.  When the only call of `cancel` returns, the callbacks whose registration has returned before have finished
(there being no calls of `deregister_callback`). -/
theorem C73_cancel_waits {s} (h : Reachable s) {c t1 t2 t3} (ht : s.trace = t1 ++ .cancelCalled c :: t2 ++ .cancelReturned c :: t3)
    (hc : ∀ c', .cancelCalled c' ∈ t1 ++ t2 → False) (hd : ∀ d a, .deregCalled d a ∈ t1 ++ t2 → False)
    {f tok} (hf : .regReturned f tok ∈ t1) : ∃ k, .finished f k ∈ t1 ++ t2 := by
  obtain ⟨a, b, g1, g2, g3, g4, g5⟩ := reach_event h ht
  have i := inv g1
  have hh := hist g1
  -- the call of `cancel` is at its end
  have hth : ∃ o, a.threads c = .cancelNext o [] := by
    cases g3 with
    | call c => cases c <;> simp [Call.event, g2] at g4
    | thread k th es sh th' hk hl => cases hl <;> simp [g2] at g4 <;> grind
  obtain ⟨o, hth⟩ := hth
  have hca : a.shared.canceled = some c := by
    have h1 := hh.canc c (.inr (.inl ⟨o, [], hth⟩))
    obtain ⟨c', hc'⟩ := Option.ne_none_iff_exists'.mp h1
    have h2 := (i.who c' hc').1
    rw [g2] at h2
    simp at h2
    rcases h2 with h2 | rfl | h2
    · exact absurd (hc c' (by simp [h2])) id
    · exact hc'
    · exact absurd (hc c' (by simp [h2])) id
  have hfa : .regReturned f tok ∈ a.trace := by rw [g2]; simp [hf]
  have hdone := hh.ended f _ hfa (by simp [Event.ends])
  have hone := ends_once g1 f
  rw [hdone] at hone
  have hp := i.place f
  have hr := i.run f
  have h1 := mem_regs (hh.regd f (.inr ⟨tok, .inr hfa⟩))
  rw [hdone, i.empty (by simp [hca]), hca] at hp
  rw [hdone, hca] at hr
  simp [canceler, hth, Thread.rest, Thread.before, Thread.running, Thread.inReg] at hp hr
  have hgone : gone f a.trace = 0 := by
    have hrem := removed_le g1
    have : a.trace.countP Event.isDeregCall = 0 := by
      rw [List.countP_eq_zero]
      intro e he
      cases e <;> simp [Event.isDeregCall]
      rw [g2] at he
      simp at he
      exact hd _ _ (by simpa using he)
    rw [this] at hrem
    have hrem : a.trace.countP Event.isRemoved = 0 := by omega
    rw [List.countP_eq_zero] at hrem
    unfold gone
    rw [List.sum_eq_zero]
    intro x hx
    simp at hx
    obtain ⟨e, he, rfl⟩ := hx
    cases e with
    | removed d g => exact absurd (hrem _ he) (by simp [Event.isRemoved])
    | threw g k lost =>
      rcases hh.thr g k lost he with ⟨_, rfl⟩ | h2
      · simp [Event.gone]
      · rw [hca] at h2
        simp at h2
        subst h2
        have := hh.ended c _ he (by simp [Event.ends])
        rw [hth] at this; simp at this
    | _ => rfl
  have hfin : 1 ≤ fins f a.trace := by omega
  obtain ⟨e, he, h2⟩ := List.one_le_countP_iff.mp hfin
  cases e <;> simp [Event.isEnd] at h2
  · next g k =>
    subst h2
    refine ⟨k, ?_⟩
    rw [g2] at he
    simpa using he
  · next g k lost =>
    subst h2
    exfalso
    rcases hh.thr g k lost he with ⟨rfl, rfl⟩ | h3
    · -- the call would have ended twice
      obtain ⟨l, r, hlr⟩ := List.append_of_mem hfa
      rw [hlr] at he hone
      simp at he
      simp [Event.ends, Thread.over] at hone
      rcases he with he | he
      · have : 1 ≤ l.countP (Event.ends k) := List.one_le_countP_iff.mpr ⟨_, he, by simp [Event.ends]⟩
        omega
      · have : 1 ≤ r.countP (Event.ends k) := List.one_le_countP_iff.mpr ⟨_, he, by simp [Event.ends]⟩
        omega
    · rw [hca] at h3
      simp at h3
      subst h3
      have := hh.ended c _ he (by simp [Event.ends])
      rw [hth] at this; simp at this

/-! ### deregistration -/

/-- Addresses are unique. -/
structure Addrs (s : State) : Prop where
  list : (s.shared.list.map Node.addr).Nodup
  new : ∀ k n, s.threads k = .regLock n → ∀ m ∈ s.shared.list, m.addr ≠ n.addr
  two : ∀ k n, s.threads k = .regLock n → ∀ k' n', s.threads k' = .regLock n' → n.addr = n'.addr → k = k'

theorem addrs {s} (h : Reachable s) : Addrs s := by
  unfold Reachable at h
  generalize ha : initial = a at h
  induction h with
  | refl => subst ha; constructor <;> simp [initial]
  | @step u v hu h2 ih =>
    subst ha
    obtain ⟨a1, a2, a3⟩ := ih
    cases h2 with
    | call c hv =>
      cases c with
      | register a =>
        simp only [Call.valid] at hv
        obtain ⟨v1, v2⟩ := hv
        have v3 : ∀ k n, u.threads k = .regLock n → n.addr ≠ a := fun k n hk => v2 k n (by simp [hk, Thread.nodes])
        clear v2
        constructor
        · exact a1
        · simp only [State.setThread, Call.thread]; intro k n hk
          split at hk
          · simp at hk; subst hk; exact v1
          · exact a2 k n hk
        · simp only [State.setThread, Call.thread]; intro k n hk k' n' hk' he
          split at hk <;> split at hk'
          · simp_all
          · simp at hk; subst hk; exact absurd he.symm (v3 k' n' hk')
          · simp at hk'; subst hk'; exact absurd he (v3 k n hk)
          · exact a3 k n hk k' n' hk' he
      | _ =>
        constructor
        · exact a1
        all_goals
          simp only [State.setThread, Call.thread]
          grind
    | thread k th es sh th' hk hl =>
      constructor
      · cases hl with
        | regIn n _ =>
          simp only [List.map_cons, List.nodup_cons]
          refine ⟨?_, a1⟩
          simp only [List.mem_map, not_exists, not_and]
          exact a2 k n hk
        | deregFound t l n r h1 =>
          rw [h1] at a1
          simp only [List.map_append, List.map_cons] at a1 ⊢
          exact a1.sublist (List.Sublist.append_left (List.sublist_cons_self _ _) _)
        | cancelFirst => simp
        | _ => exact a1
      · simp only [State.setThread]
        cases hl <;> grind
      · simp only [State.setThread]
        clear a1 a2
        cases hl <;> grind

/-- The only registration so far gets its own address. -/
theorem first_token {s f} (h : Reachable s) (hf : ∀ g, .regCalled g ∈ s.trace → g = f) :
    ∀ tok, s.threads f = .regRet tok ∨ .regReturned f tok ∈ s.trace → ∀ n ∈ s.shared.list, some n.addr = tok := by
  unfold Reachable at h
  generalize ha : initial = a at h
  induction h with
  | refl => subst ha; simp [initial]
  | @step u v hu h2 ih =>
    subst ha
    have ih := ih (by
      intro g hg
      apply hf g
      exact (steps_trace (.step (.refl _) h2)).subset hg)
    have i := inv hu
    have hh := hist hu
    have hall : ∀ n ∈ u.shared.list, n.fn = f := by
      intro n hn
      apply hf
      apply (steps_trace (.step (.refl _) h2)).subset
      apply regs_mem
      have := i.place n.fn
      have : 0 < fns u.shared.list n.fn := List.count_pos_iff.mpr (List.mem_map.mpr ⟨n, hn, rfl⟩)
      omega
    cases h2 with
    | call c hv =>
      have hfr := i.fresh u.next (by omega)
      simp only [State.setThread]
      intro tok htok
      by_cases hfn : f = u.next
      · exfalso
        rcases htok with htok | htok
        · simp [hfn] at htok; cases c <;> simp [Call.thread] at htok
        · have : .regReturned f tok ∈ u.trace := by cases c <;> simpa [Call.event] using htok
          have := i.old _ this f (by simp [Event.calls])
          omega
      · apply ih tok
        rcases htok with htok | htok
        · left; simpa [hfn] using htok
        · right; cases c <;> simpa [Call.event] using htok
    | thread k th es sh th' hk hl =>
      simp only [State.setThread]
      have hend := hh.ended f
      cases hl with
      | regIn n hc =>
        have hkf : k = f := hf k (by simpa using hh.regd k (.inl ⟨n, .inl hk⟩))
        subst hkf
        have hp := i.place k
        rw [hk] at hp
        have h1 := i.one k
        simp [Thread.before] at hp
        have hnil : u.shared.list = [] := by
          cases hl : u.shared.list with
          | nil => rfl
          | cons m l =>
            have := hall m (by simp [hl])
            rw [hl] at hp; simp [this] at hp; omega
        intro tok htok m hm
        rw [hnil] at hm
        simp at hm
        subst hm
        rcases htok with htok | htok
        · simp [hnil] at htok; exact htok
        · simp at htok
          have := hend _ htok (by simp [Event.ends])
          rw [hk] at this; simp at this
      | regFinish n =>
        have he := i.empty (i.reg k ⟨n, .inr hk⟩)
        simp [he]
      | _ => clear i hh hall; grind

/-- Call `f` has returned, and its callback, if it is still in the list, has address `a`. -/
def Placed (f a : Nat) (s : State) : Prop := s.threads f = .done ∧ ∀ n ∈ s.shared.list, n.fn = f → n.addr = a

theorem placed_steps {f a} {s t : State} (hs : Reachable s) (h : Steps s t) (hp : Placed f a s) : Placed f a t := by
  induction h with
  | refl => exact hp
  | @step u v h1 h2 ih =>
    obtain ⟨p1, p2⟩ := ih
    have i := inv (Steps.trans hs h1)
    have hown := i.own
    cases h2 with
    | call c hv =>
      have : f ≠ u.next := by
        rintro rfl
        rw [i.fresh _ (by omega)] at p1; simp at p1
      exact ⟨by simp [State.setThread, this, p1], p2⟩
    | thread k th es sh th' hk hl =>
      have hkf : f ≠ k := by rintro rfl; rw [p1] at hk; subst hk; cases hl
      refine ⟨by simp [State.setThread, hkf, p1], ?_⟩
      clear i
      cases hl <;> grind

/-- Call `d`, which looks for address `a`, has not yet taken the lock, or the callback of `f` is not in the list. -/
theorem deregister_steps {f a d} {s t : State} (hs : Reachable s) (h : Steps s t) (hp : Placed f a s)
    (hd : s.threads d = .deregLock a) (hc : t.shared.canceled = none) :
    t.threads d = .deregLock a ∨ fns t.shared.list f = 0 := by
  induction h with
  | refl => exact .inl hd
  | @step u v h1 h2 ih =>
    have hcu : u.shared.canceled = none := by
      by_contra hne
      exact canceled_step h2 hne hc
    have ih := ih hcu
    have hu := Steps.trans hs h1
    obtain ⟨p1, p2⟩ := placed_steps hs h1 hp
    have i := inv hu
    have au := (addrs hu).list
    have hown := i.own
    cases h2 with
    | call c hv =>
      rcases ih with ih | ih
      · left
        have : d ≠ u.next := by
          rintro rfl
          rw [i.fresh _ (by omega)] at ih; simp at ih
        simp [State.setThread, this, ih]
      · exact .inr ih
    | thread k th es sh th' hk hl =>
      have hkf : f ≠ k := by rintro rfl; rw [p1] at hk; subst hk; cases hl
      by_cases hkd : k = d
      · subst hkd
        right
        rcases ih with ih | ih
        · rw [ih] at hk
          subst hk
          have zero : ∀ l : List Node, (∀ m ∈ l, m.fn ≠ f) → fns l f = 0 := by
            intro l hm
            apply List.count_eq_zero.mpr
            intro h
            obtain ⟨m, h1, h2⟩ := List.mem_map.mp h
            exact hm m h1 h2
          cases hl with
          | deregFound _ l n r h3 h4 h5 =>
            apply zero
            intro m hm hmf
            have hma := p2 m (by rw [h3]; simp at hm ⊢; tauto) hmf
            rw [h3] at au
            simp only [List.map_append, List.map_cons] at au
            simp at hm
            rcases hm with hm | hm
            · exact h5 m hm hma
            · have := (List.nodup_append.mp au).2.1
              rw [List.nodup_cons] at this
              exact this.1 (List.mem_map.mpr ⟨m, hm, by rw [hma, h4]⟩)
          | deregNone _ h3 =>
            apply zero
            intro m hm hmf
            exact h3 m hm (p2 m hm hmf)
        · cases hl with
          | regIn n h3 =>
            have := hown k n (.inl hk)
            simp [this, Ne.symm hkf, ih]
          | deregFound t l n r h3 => rw [h3] at ih; simp at ih ⊢; omega
          | cancelFirst h3 => simp at hc
          | _ => exact ih
      · rcases ih with ih | ih
        · left; simp [State.setThread, Ne.symm hkd, ih]
        · right
          cases hl with
          | regIn n h3 =>
            have := hown k n (.inl hk)
            simp [this, Ne.symm hkf, ih]
          | deregFound t l n r h3 => rw [h3] at ih; simp at ih ⊢; omega
          | cancelFirst h3 => simp at hc
          | _ => exact ih

/-- C74, full statement: a callback that is deregistered with the registration it was given, before `cancel` is called, does not
run.  This is false (`C74_deregister_violated`), because `register_callback` returns the address of the oldest callback in the list.
Proved here for the first registration. -/
theorem C74_first_deregister_partial {s} (h : Reachable s) {f a d t1 t2 t3}
    (ht : s.trace = t1 ++ .regReturned f (some a) :: t2 ++ .deregReturned d :: t3)
    (hfirst : ∀ g, .regCalled g ∈ t1 → g = f) (hd : .deregCalled d a ∈ t2) (hc : ∀ c, .cancelCalled c ∈ t1 ++ t2 → False) :
    starts f s.trace = 0 := by
  obtain ⟨x1, x2, g1, g2, g3, g4, g5⟩ := reach_event h (t1 := t1) (e := .regReturned f (some a)) (t2 := t2 ++ .deregReturned d :: t3)
    (by simp [ht])
  have hx2 : Reachable x2 := .step g1 g3
  obtain ⟨t4, t5, rfl⟩ := List.append_of_mem hd
  have hp : Placed f a x2 := by
    refine ⟨(hist hx2).ended f (.regReturned f (some a)) (by rw [g4]; simp) (by simp [Event.ends]), fun n hn _ => ?_⟩
    have := first_token hx2 (f := f) (by intro g hg; rw [g4] at hg; exact hfirst g (by simpa using hg)) (some a)
      (.inr (by rw [g4]; simp)) n hn
    simpa using this
  obtain ⟨y1, y2, k1, k2, k3, k4, k5⟩ := steps_event g5 (t1 := t1 ++ .regReturned f (some a) :: t4) (e := .deregCalled d a)
    (t2 := t5 ++ .deregReturned d :: t3) (by simp [ht]) (by rw [g4]; simp; try omega)
  have hy1 : Reachable y1 := Steps.trans hx2 k1
  have hy2 : Reachable y2 := .step hy1 k3
  have hyd : y2.threads d = .deregLock a := by
    rw [← k2] at k4
    cases k3 with
    | call c => cases c <;> simp [Call.event] at k4; simp [State.setThread, Call.thread, k4]
    | thread k th es sh th' hk hl => cases hl <;> simp at k4
  obtain ⟨z1, z2, m1, m2, m3, m4, m5⟩ := steps_event k5 (t1 := t1 ++ .regReturned f (some a) :: t4 ++ .deregCalled d a :: t5)
    (e := .deregReturned d) (t2 := t3) (by simp [ht]) (by rw [k4]; simp; try omega)
  have hz1 : Reachable z1 := Steps.trans hy2 m1
  have hcan : z1.shared.canceled = none := by
    by_contra hne
    obtain ⟨c, hcc⟩ := Option.ne_none_iff_exists'.mp hne
    have := ((inv hz1).who c hcc).1
    rw [m2] at this
    exact hc c (by simp at this ⊢; tauto)
  have hzp := placed_steps hx2 (Steps.trans k1 (Steps.trans (.step (.refl _) k3) m1)) hp
  have hlist : fns z1.shared.list f = 0 := by
    rcases deregister_steps hy2 m1 (placed_steps hx2 (.step k1 k3) hp) hyd hcan with h1 | h1
    · exfalso
      rw [← m2] at m4
      cases m3 with
      | call c => cases c <;> simp [Call.event] at m4
      | thread k th es sh th' hk hl => cases hl <;> simp at m4 <;> grind
    · exact h1
  have hst : starts f z1.trace = 0 := by
    by_contra hne
    obtain ⟨e, he, h2⟩ := List.one_le_countP_iff.mp (Nat.one_le_iff_ne_zero.mpr hne)
    cases e <;> simp [Event.isStart] at h2
    exact start_canceled hz1 ⟨_, _, he⟩ hcan
  have hz := (inv hz1).place f
  have hreg := mem_regs ((hist hz1).regd f (.inr ⟨some a, .inr (by rw [m2]; simp)⟩))
  rw [hst, hlist, hcan, hzp.1] at hz
  simp [canceler, Thread.rest, Thread.before] at hz
  have hfin := (inv h).place f
  have hone := (inv h).one f
  obtain ⟨r, hr⟩ := steps_trace (Steps.trans (.step (.refl _) m3) m5)
  rw [← hr] at hfin hone ⊢
  simp only [starts_append, gone_append, regs_append] at hfin hone ⊢
  omega

/-! ### is_canceled -/

/-- C75.  `is_canceled` answers `true` only if `cancel` has been called. -/
theorem C75_true_needs_cancel {s} (h : Reachable s) {i t1 t2} (ht : s.trace = t1 ++ .answered i true :: t2) :
    ∃ c, .cancelCalled c ∈ t1 := by
  obtain ⟨s1, g1, g2, _⟩ := reach_prefix h (t1 := t1 ++ [.answered i true]) ⟨t2, by simp [ht]⟩
  obtain ⟨c, hc⟩ := Option.ne_none_iff_exists'.mp ((hist g1).canc i (.inr (.inr (.inr (.inl (by rw [g2]; simp))))))
  refine ⟨c, ?_⟩
  have := ((inv g1).who c hc).1
  rw [g2] at this; simpa using this

/-- A question that is asked after cancellation is answered with `true`. -/
theorem late_answer {s t : State} {i} (hs : Reachable s) (h : Steps s t) (hc : s.shared.canceled ≠ none) (hi : s.next ≤ i) :
    ∀ b, .answered i b ∈ t.trace ∨ t.threads i = .askRet b → b = true := by
  induction h with
  | refl =>
    intro b h
    have j := inv hs
    rw [j.fresh i hi] at h
    simp at h
    have := j.old _ h i (by simp [Event.calls])
    omega
  | @step u v h1 h2 ih =>
    have hu := canceled_steps h1 hc
    have hsome : u.shared.canceled.isSome = true := by cases hx : u.shared.canceled <;> simp_all
    cases h2 with
    | call c hv =>
      simp only [State.setThread]
      cases c <;> simp only [Call.event, Call.thread] <;> grind
    | thread k th es sh th' hk hl =>
      simp only [State.setThread]
      cases hl <;> grind

/-- C75.  Once `cancel` has returned, or `is_canceled` has answered `true`, it answers `true` for ever. -/
theorem C75_stays_canceled {s} (h : Reachable s) {i b t1 t2} (ht : s.trace = t1 ++ .askCalled i :: t2) (hb : .answered i b ∈ t2)
    (hc : (∃ c, .cancelReturned c ∈ t1) ∨ ∃ j, .answered j true ∈ t1) : b = true := by
  obtain ⟨s1, s2, g1, g2, g4, g5, g6⟩ := reach_event h ht
  have hcan : s1.shared.canceled ≠ none := by
    rcases hc with ⟨c, hc⟩ | ⟨j, hj⟩
    · exact (hist g1).canc c (.inl (by rw [g2]; exact hc))
    · exact (hist g1).canc j (.inr (.inr (.inr (.inl (by rw [g2]; exact hj)))))
  have hnew : s1.next ≤ i := by
    rw [← g2] at g5
    cases g4 with
    | call c => cases c <;> simp [Call.event] at g5; omega
    | thread k th es sh th' hk hl => cases hl <;> simp at g5
  exact late_answer g1 (Steps.trans (.step (.refl _) g4) g6) hcan hnew b (.inl (by rw [ht]; simp [hb]))

end Verif.Cancel
