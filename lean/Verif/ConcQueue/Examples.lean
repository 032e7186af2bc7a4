import Verif.ConcQueue.Props
/-! Concrete executions: the hypotheses of the theorems can be met. -/
namespace Verif.ConcQueue
open Spec

def run {V : Type} (s : State V) (h : List (Event V)) : List (Nat × Act V) → Option (State V × List (Event V))
  | [] => some (s, h)
  | (i, a) :: r => match step s i a with
    | some (s', e) => run s' (h ++ e.toList) r
    | none => none

theorem run_exec {V : Type} (as : List (Nat × Act V)) : ∀ (s : State V) (h : List (Event V)) (s' : State V) (h' : List (Event V)),
    Exec h s → run s h as = some (s', h') → Exec h' s' := by
  induction as with
  | nil => intro s h s' h' hx hr; simp [run] at hr; obtain ⟨rfl, rfl⟩ := hr; exact hx
  | cons p as ih =>
    intro s h s' h' hx hr
    obtain ⟨i, a⟩ := p
    simp only [run] at hr
    split at hr
    · rename_i s'' e hst; exact ih _ _ _ _ (.step hx hst) hr
    · simp at hr

/-- Call 0 pushes 10 and ends; call 1 pushes 20; meanwhile call 2 pops; call 3 waits for the lock in between. -/
def schedule : List (Nat × Act Nat) :=
  [(0, .call (.push 10)), (0, .alloc), (0, .acquire), (0, .access), (0, .release), (0, .finish),
   (1, .call (.push 20)), (1, .alloc), (2, .call .pop), (2, .acquire), (3, .call .pop), (2, .access), (2, .access),
   (2, .release), (1, .acquire), (1, .access), (2, .finish), (1, .release), (3, .acquire), (3, .access), (3, .access),
   (3, .release), (3, .finish), (1, .finish), (4, .call .pop), (4, .acquire), (4, .access), (4, .release), (4, .finish)]

def observed : List (Event Nat) :=
  [.inv 0 (.push 10), .res 0 .pushed, .inv 1 (.push 20), .inv 2 .pop, .inv 3 .pop, .res 2 (.popped 10),
   .res 3 (.popped 20), .res 1 .pushed, .inv 4 .pop, .res 4 .nothing]

example : (run State.init [] schedule).map (·.2) = some observed := by decide

theorem observed_exec : ∃ s, Exec observed s := by
  have h : ((run State.init [] schedule).map (·.2)) = some observed := by decide
  cases hr : run State.init [] schedule with
  | none => simp [hr] at h
  | some p => obtain ⟨s, h'⟩ := p; simp [hr] at h; subst h; exact ⟨s, run_exec _ _ _ _ _ .init hr⟩

/-- The pushes are distinct and ordered in time: the third part of `C88_exactly_once_in_order` applies. -/
example : DistinctPushes observed ∧ Before (.res 0 .pushed) (.inv 1 (.push 20)) observed := by
  refine ⟨?_, [.inv 0 (.push 10)], [], _, rfl⟩
  intro i j x h1 h2
  simp [observed] at h1 h2
  omega

/-- The specification is not trivial: `Fifo` rejects a queue that gives the values back in another order. -/
example : ¬ ∃ q, Fifo [.added 1, .added 2, .took 2] (q : List Nat) := by
  rintro ⟨q, hf⟩
  have := C88_fifo_meaning hf
  simp [added, taken] at this

/-- … and one that says it is empty when it is not. -/
example : ¬ ∃ q, Fifo [.added 1, .sawEmpty] (q : List Nat) := by
  rintro ⟨q, hf⟩
  have h2 := C88_fifo_meaning hf
  generalize hM : [Effect.added 1, Effect.sawEmpty] = M at hf
  cases hf with
  | nil => simp at hM
  | added x h => have := congrArg List.getLast? hM; simp at this
  | took x h => have := congrArg List.getLast? hM; simp at this
  | sawEmpty h => simp [added, taken] at h2
  | none h => have := congrArg List.getLast? hM; simp at this

end Verif.ConcQueue
