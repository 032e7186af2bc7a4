import Verif.Cancel.Inv
/-! What the events of the past say about the state. -/
namespace Verif.Cancel

/-- Call `k` ends. -/
def Event.ends (k : Nat) : Event → Bool
  | .regReturned k' _ | .cancelReturned k' | .deregReturned k' | .answered k' _ | .threw _ k' _ => k' == k
  | _ => false

structure Hist (s : State) : Prop where
  fresh : ∀ k, s.next ≤ k → s.threads k = .idle
  old : ∀ e ∈ s.trace, ∀ k ∈ e.calls, k < s.next
  ended : ∀ k e, e ∈ s.trace → e.ends k → s.threads k = .done
  canc : ∀ k, .cancelReturned k ∈ s.trace ∨ (∃ o r, s.threads k = .cancelNext o r) ∨ (∃ o n r, s.threads k = .cancelRun o n r) ∨
    .answered k true ∈ s.trace ∨ s.threads k = .askRet true → s.shared.canceled ≠ none
  pend : ∀ c, .cancelCalled c ∈ s.trace → s.shared.canceled ≠ none ∨ s.threads c = .cancelLock
  null : ∀ k, .regReturned k none ∈ s.trace ∨ s.threads k = .regRet none → .finished k k ∈ s.trace
  regd : ∀ k, (∃ n, s.threads k = .regLock n ∨ s.threads k = .regCall n ∨ s.threads k = .regRun n) ∨
    (∃ t, s.threads k = .regRet t ∨ .regReturned k t ∈ s.trace) → .regCalled k ∈ s.trace
  thr : ∀ f k lost, .threw f k lost ∈ s.trace → (k = f ∧ lost = []) ∨ s.shared.canceled = some k

set_option maxHeartbeats 1000000 in
theorem hist_step {s t : State} (hi : Inv s) (h : Hist s) (hs : Step s t) : Hist t := by
  have hi' := inv_step hi hs
  obtain ⟨b1, b2, b3, b4, b5, b6, b7, b8⟩ := h
  refine ⟨hi'.fresh, hi'.old, ?_, ?_, ?_, ?_, ?_, ?_⟩
  all_goals
    cases hs with
    | call c hv =>
      have hf := hi.fresh s.next (by omega)
      clear hi hi'
      simp only [State.setThread]
      cases c <;> simp only [Call.event, Call.thread] <;> grind [Event.ends, Event.calls]
    | thread k th es sh th' hk hl =>
      have hown := hi.own
      have honly := hi.only
      clear hi hi'
      simp only [State.setThread]
      cases hl <;> grind [Event.ends]

theorem hist {s : State} (h : Reachable s) : Hist s := by
  have : Inv s ∧ Hist s := by
    unfold Reachable at h
    generalize ha : initial = a at h
    induction h with
    | refl =>
      subst ha
      exact ⟨inv_initial, by constructor <;> intros <;> simp_all [initial]⟩
    | step _ h2 ih => exact ⟨inv_step ih.1 h2, hist_step ih.1 ih.2 h2⟩
  exact this.2

def Thread.over : Thread → Nat
  | .done => 1
  | _ => 0

/-- A call ends once. -/
theorem ends_once {s : State} (h : Reachable s) (k : Nat) :
    s.trace.countP (Event.ends k) ≤ (s.threads k).over := by
  unfold Reachable at h
  generalize ha : initial = a at h
  induction h with
  | refl => subst ha; simp [initial]
  | @step u v hu h2 ih =>
    subst ha
    cases h2 with
    | call c hv =>
      have hf := (inv hu).fresh u.next (by omega)
      simp only [State.setThread, List.countP_append]
      by_cases hk : k = u.next
      · subst hk
        rw [hf] at ih
        cases c <;> simp [Call.event, Call.thread, Event.ends, Thread.over] at ih ⊢ <;> exact ih
      · rw [if_neg hk]
        cases c <;> simp [Call.event, Event.ends] <;> exact ih
    | thread i th es sh th' hi hl =>
      simp only [State.setThread, List.countP_append]
      by_cases hk : k = i
      · subst hk
        rw [hi] at ih
        cases hl <;> simp [Event.ends, Thread.over] at ih ⊢ <;> (try simp [ih])
        all_goals omega
      · rw [if_neg hk]
        cases hl <;> simp [Event.ends, Ne.symm hk] <;> exact ih

end Verif.Cancel
