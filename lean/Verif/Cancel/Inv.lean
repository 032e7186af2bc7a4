import Verif.Cancel.Spec
import Mathlib.Algebra.BigOperators.Group.List.Basic
/-! Each callback is in exactly one place. -/
namespace Verif.Cancel

def Event.isReg (f : Nat) : Event → Bool
  | .regCalled f' => f' == f
  | _ => false

/-- The callback has come to an end. -/
def Event.isEnd (f : Nat) : Event → Bool
  | .finished f' _ | .threw f' _ _ => f' == f
  | _ => false

/-- How often `f` was taken away without a call. -/
def Event.gone (f : Nat) : Event → Nat
  | .removed _ f' => if f' = f then 1 else 0
  | .threw _ _ lost => lost.count f
  | _ => 0

def regs (f : Nat) (tr : List Event) : Nat := tr.countP (Event.isReg f)
def fins (f : Nat) (tr : List Event) : Nat := tr.countP (Event.isEnd f)
def gone (f : Nat) (tr : List Event) : Nat := (tr.map (Event.gone f)).sum

@[simp] theorem regs_append (f a b) : regs f (a ++ b) = regs f a + regs f b := by simp [regs]
@[simp] theorem fins_append (f a b) : fins f (a ++ b) = fins f a + fins f b := by simp [fins]
@[simp] theorem starts_append (f a b) : starts f (a ++ b) = starts f a + starts f b := by simp [starts]
@[simp] theorem gone_append (f a b) : gone f (a ++ b) = gone f a + gone f b := by simp [gone]
@[simp] theorem regs_nil (f) : regs f [] = 0 := rfl
@[simp] theorem fins_nil (f) : fins f [] = 0 := rfl
@[simp] theorem starts_nil (f) : starts f [] = 0 := rfl
@[simp] theorem gone_nil (f) : gone f [] = 0 := rfl

theorem regs_one (f e) : regs f [e] = (if Event.isReg f e then 1 else 0) := by simp [regs, List.countP_cons]
theorem fins_one (f e) : fins f [e] = (if Event.isEnd f e then 1 else 0) := by simp [fins, List.countP_cons]
theorem starts_one (f e) : starts f [e] = (if Event.isStart f e then 1 else 0) := by simp [starts, List.countP_cons]
theorem gone_one (f e) : gone f [e] = Event.gone f e := by simp [gone]

/-- The callbacks a call of `cancel` has still to call. -/
def Thread.rest : Thread → List Node
  | .cancelNext _ rest | .cancelRun _ _ rest => rest
  | _ => []

/-- Registration has not put the node in the list. -/
def Thread.before : Thread → Nat
  | .regLock _ | .regCall _ => 1
  | _ => 0

def Thread.running (f : Nat) : Thread → Nat
  | .regRun n | .cancelRun _ n _ => if n.fn = f then 1 else 0
  | _ => 0

/-- The thread of the call that has set `canceled`. -/
def canceler (c : Option Nat) (threads : Nat → Thread) : Thread :=
  match c with
  | none => .idle
  | some c => threads c

/-- … is in the callback of the call itself. -/
def Thread.inReg : Thread → Nat
  | .regRun _ => 1
  | _ => 0

def fns (l : List Node) (f : Nat) : Nat := (l.map Node.fn).count f

@[simp] theorem fns_append (l r f) : fns (l ++ r) f = fns l f + fns r f := by simp [fns]
@[simp] theorem fns_cons (n l f) : fns (n :: l) f = (if n.fn = f then 1 else 0) + fns l f := by
  simp [fns, List.count_cons, Nat.add_comm]
@[simp] theorem fns_nil (f) : fns [] f = 0 := rfl

/-- Where the number of the calls an event tells about begins. -/
def Event.calls : Event → List Nat
  | .regCalled k | .regReturned k _ | .cancelCalled k | .cancelReturned k | .deregCalled k _ | .deregReturned k | .askCalled k
  | .answered k _ => [k]
  | .started f k | .finished f k | .threw f k _ => [f, k]
  | .removed k f => [f, k]

/-- The number of the registering call is the number in the node. -/
structure Inv (s : State) : Prop where
  fresh : ∀ k, s.next ≤ k → s.threads k = .idle
  old : ∀ e ∈ s.trace, ∀ k ∈ e.calls, k < s.next
  one : ∀ f, regs f s.trace ≤ 1
  empty : s.shared.canceled ≠ none → s.shared.list = []
  own : ∀ k n, s.threads k = .regLock n ∨ s.threads k = .regCall n ∨ s.threads k = .regRun n → n.fn = k
  only : ∀ k, (s.threads k).rest ≠ [] ∨ (∃ o n r, s.threads k = .cancelRun o n r) → s.shared.canceled = some k
  reg : ∀ k, (∃ n, s.threads k = .regCall n ∨ s.threads k = .regRun n) → s.shared.canceled ≠ none
  who : ∀ c, s.shared.canceled = some c → .cancelCalled c ∈ s.trace ∧
    (s.threads c = .done ∨ (∃ o r, s.threads c = .cancelNext o r) ∨ ∃ o n r, s.threads c = .cancelRun o n r)
  lock : ∀ k, s.threads k = .cancelLock → .cancelCalled k ∈ s.trace
  place : ∀ f, starts f s.trace + gone f s.trace + fns s.shared.list f + fns (canceler s.shared.canceled s.threads).rest f + (s.threads f).before = regs f s.trace
  run : ∀ f, starts f s.trace = fins f s.trace + (canceler s.shared.canceled s.threads).running f +
    (s.threads f).inReg

theorem inv_initial : Inv initial := by
  constructor <;> intros <;> simp_all [initial, canceler, Thread.rest, Thread.before, Thread.running, Thread.nodes, Thread.inReg]

theorem regs_zero {f tr} (h : ∀ e ∈ tr, ∀ k ∈ Event.calls e, k < f) : regs f tr = 0 ∧ starts f tr = 0 ∧ fins f tr = 0 := by
  refine ⟨?_, ?_, ?_⟩ <;> simp only [regs, starts, fins, List.countP_eq_zero] <;> intro e he h1 <;> have h2 := h e he <;>
    cases e <;> simp [Event.isReg, Event.isStart, Event.isEnd, Event.calls] at h1 h2 <;> omega

theorem canceler_call {s : State} (h : Inv s) (th : Thread) :
    canceler s.shared.canceled (s.setThread s.next th) = (canceler s.shared.canceled s.threads) := by
  simp only [canceler]
  cases hc : s.shared.canceled with
  | none => rfl
  | some c =>
    obtain ⟨h1, h2⟩ := h.who c hc
    have := h.old _ h1 c (by simp [Event.calls])
    simp [State.setThread]; omega

theorem inv_call {s : State} (h : Inv s) (c : Call) (hv : c.valid s) :
    Inv { s with threads := s.setThread s.next (c.thread s.next), next := s.next + 1, trace := s.trace ++ [c.event s.next] } := by
  have hf := h.fresh s.next (by omega)
  have hz := regs_zero (f := s.next) (fun e he k hk => h.old e he k hk)
  have hp := h.place s.next
  rw [hf, hz.1] at hp
  have hcan := canceler_call h (c.thread s.next)
  have hev : ∀ f, starts f [c.event s.next] = 0 ∧ fins f [c.event s.next] = 0 ∧ gone f [c.event s.next] = 0 ∧
      regs f [c.event s.next] = (if f = s.next then (c.thread s.next).before else 0) := by
    intro f
    cases c <;> simp [Call.event, Call.thread, starts, fins, gone, regs, Event.isStart, Event.isEnd, Event.gone, Event.isReg, Thread.before,
      List.countP_cons] <;> split <;> simp_all <;> omega
  constructor
  · intro k hk
    simp only [State.setThread]
    rw [if_neg (by simp at hk; omega)]
    exact h.fresh k (by simp at hk; omega)
  · intro e he k hk
    simp at he
    rcases he with he | rfl
    · have := h.old e he k hk; simp; omega
    · cases c <;> simp_all [Call.event, Event.calls]
  · intro f
    have := hev f
    have := h.one f
    simp only [regs_append]
    by_cases hfn : f = s.next
    · subst hfn
      simp_all
      cases c <;> simp [Call.thread, Thread.before]
    · simp_all
  · exact h.empty
  · intro k n hn
    simp only [State.setThread] at hn
    split at hn
    · cases c <;> simp_all [Call.thread]
      rw [← hn]
    · exact h.own k n hn
  · intro k hk
    simp only [State.setThread] at hk
    split at hk
    · exfalso; cases c <;> simp [Call.thread, Thread.rest] at hk
    · exact h.only k hk
  · intro k hk
    simp only [State.setThread] at hk
    split at hk
    · exfalso; cases c <;> simp [Call.thread] at hk
    · exact h.reg k hk
  · intro k hk
    obtain ⟨h1, h2⟩ := h.who k hk
    refine ⟨by simp [h1], ?_⟩
    have := h.old _ h1 k (by simp [Event.calls])
    simp only [State.setThread]
    rw [if_neg (by omega)]; exact h2
  · intro k hk
    simp only [State.setThread] at hk
    split at hk
    · next hk' => subst hk'; cases c <;> simp [Call.thread] at hk; simp [Call.event]
    · simp [h.lock k hk]
  · intro f
    have h1 := hev f
    have h2 := h.place f
    simp only [hcan]
    simp only [starts_append, gone_append, regs_append, h1, State.setThread]
    split
    · next hfn => subst hfn; rw [hf] at h2; simp [Thread.before] at h2 ⊢; omega
    · omega
  · intro f
    have h1 := hev f
    have h2 := h.run f
    simp only [hcan]
    simp only [starts_append, fins_append, h1, State.setThread]
    split
    · next hfn => subst hfn; rw [hf] at h2; cases c <;> simp [Call.thread, Thread.inReg] at h2 ⊢ <;> omega
    · simp at h2 ⊢; omega

set_option maxHeartbeats 1000000 in
theorem inv_thread {s : State} (h : Inv s) {k th es sh th'} (hk : s.threads k = th) (hl : Local k s.shared th es sh th') :
    Inv { s with shared := sh, threads := s.setThread k th', trace := s.trace ++ es } := by
  have hkn : k < s.next := by
    by_contra hc
    have := h.fresh k (by omega)
    rw [this] at hk; subst hk; cases hl
  have hfl : ∀ f, 0 < regs f s.trace → f < s.next := by
    intro f hf
    simp only [regs, List.countP_pos_iff] at hf
    obtain ⟨e, he, h1⟩ := hf
    cases e <;> simp [Event.isReg] at h1
    subst h1
    exact h.old _ he _ (by simp [Event.calls])
  obtain ⟨a1, a2, a3, a4, a5, a6, a7, a8, a9, a10, a11⟩ := h
  have key : ∀ f, 0 < starts f s.trace + fns s.shared.list f + fns (canceler s.shared.canceled s.threads).rest f + (s.threads f).before → f < s.next :=
    fun f hf => hfl f (by have := a10 f; omega)
  have fns_map : ∀ (l : List Node) f, (l.map Node.fn).count f = fns l f := fun _ _ => rfl
  have fns_pos : ∀ (l : List Node) n, n ∈ l → 0 < fns l n.fn := fun l n h => List.count_pos_iff.mpr (List.mem_map.mpr ⟨n, h, rfl⟩)
  have hcan : ∀ th', canceler s.shared.canceled (s.setThread k th') =
      (if s.shared.canceled = some k then th' else canceler s.shared.canceled s.threads) := by
    intro th'
    cases hc : s.shared.canceled <;> simp [canceler, State.setThread]
  have hcan2 : s.shared.canceled = some k → canceler s.shared.canceled s.threads = s.threads k := by
    intro hc; simp [canceler, hc]
  have hcan3 : ∀ th', canceler (some k) (s.setThread k th') = th' := by simp [canceler, State.setThread]
  have hcan4 : s.shared.canceled = none → canceler s.shared.canceled s.threads = .idle := by
    intro hc; simp [canceler, hc]
  have hrun : ∀ o n r, s.threads k = .cancelRun o n r → n.fn < s.next := by
    intro o n r hn
    have h1 := hcan2 (a6 k (.inr ⟨o, n, r, hn⟩))
    have h2 := a11 n.fn
    rw [h1, hn] at h2
    simp [Thread.running] at h2
    exact key _ (by omega)
  cases hl
  all_goals
    constructor
    all_goals (try simp only [hcan, hcan3])
    all_goals (try simp only [State.setThread, List.append_nil, starts_append, gone_append, regs_append, fins_append, starts_one,
      gone_one, regs_one, fins_one, Event.isStart, Event.gone, Event.isReg, Event.isEnd, beq_iff_eq, fns_map])
    · grind
    · grind [Event.calls, Thread.rest, Thread.before, Thread.running, fns_append, fns_cons]
    · grind
    · first
        | grind
        | (intro hc; have := a4 hc; simp_all)
    · grind [Thread.nodes]
    · grind [Thread.rest]
    · intro i hi
      have := a7 i
      split at hi <;> grind
    · grind
    · grind
    · intro f
      have h1 := a10 f
      have h8 := a8 k
      by_cases hfk : f = k <;> by_cases hck : s.shared.canceled = some k <;>
        grind [Thread.rest, Thread.before, fns_nil, fns_append, fns_cons]
    · intro f
      have h1 := a11 f
      have h8 := a8 k
      by_cases hfk : f = k <;> by_cases hck : s.shared.canceled = some k <;>
        grind [Thread.inReg, Thread.running, Thread.rest, Thread.nodes]

theorem inv_step {s t : State} (h : Inv s) (hs : Step s t) : Inv t := by
  cases hs with
  | call c hv => exact inv_call h c hv
  | thread k th es sh th' hk hl => exact inv_thread h hk hl

theorem inv {s : State} (h : Reachable s) : Inv s := by
  unfold Reachable at h
  generalize ha : initial = a at h
  induction h with
  | refl => subst ha; exact inv_initial
  | step _ h2 ih => exact inv_step ih h2

theorem Steps.trans {a b c : State} (h1 : Steps a b) (h2 : Steps b c) : Steps a c := by
  induction h2 with
  | refl => exact h1
  | step _ h ih => exact .step ih h

/-- Each step adds at most one event. -/
theorem step_trace {s t : State} (h : Step s t) : t.trace = s.trace ∨ ∃ e, t.trace = s.trace ++ [e] := by
  cases h with
  | call c => exact .inr ⟨_, rfl⟩
  | thread k th es sh th' hk hl => cases hl <;> simp

theorem reach_prefix {s : State} (h : Reachable s) {t1 : List Event} (ht : t1 <+: s.trace) :
    ∃ s', Reachable s' ∧ s'.trace = t1 ∧ Steps s' s := by
  unfold Reachable at h ⊢
  have ha : initial.trace = [] := rfl
  generalize initial = a at h ha
  induction h with
  | refl =>
    rw [ha] at ht
    exact ⟨a, .refl _, by rw [ha, List.prefix_nil.mp ht], .refl _⟩
  | @step b c h1 h2 ih =>
    rcases step_trace h2 with e | ⟨e, he⟩
    · rw [e] at ht
      obtain ⟨s', g1, g2, g3⟩ := ih ht
      exact ⟨s', g1, g2, .step g3 h2⟩
    · rw [he, List.prefix_concat_iff] at ht
      rcases ht with ht | ht
      · exact ⟨c, .step h1 h2, by rw [he, ht], .refl _⟩
      · obtain ⟨s', g1, g2, g3⟩ := ih ht
        exact ⟨s', g1, g2, .step g3 h2⟩

theorem steps_trace {s t : State} (h : Steps s t) : s.trace <+: t.trace := by
  induction h with
  | refl => exact List.prefix_rfl
  | step _ h2 ih => rcases step_trace h2 with e | ⟨e, he⟩ <;> simp_all <;> exact ih.trans (List.prefix_append _ _)

end Verif.Cancel
