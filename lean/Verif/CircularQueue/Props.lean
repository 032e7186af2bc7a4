import Verif.CircularQueue.Lemmas
/-
Properties C11, C12, C13 of adobe::circular_queue.
-/
namespace Verif.CircularQueue

variable {α : Type}

/-- C11: for every capacity ≥ 1, every default value and every history of push_back / pop_front / putback / clear
    that respects the documented preconditions, the queue never fails and is observationally the bounded FIFO that
    drops its oldest element on overflow. -/
theorem C11_bounded_fifo (d : α) (cap : Nat) (hcap : 0 < cap) (ops : List (Op α)) (s : Spec α)
    (hs : (Spec.init cap).run ops = some s) :
    ∃ q, run (mk d cap) ops = some q ∧ obs q = s.obs := by
  obtain ⟨q, h1, h2⟩ := (rep_mk d hcap).run ops hs
  exact ⟨q, h1, h2.obs⟩

/-- C11 (no hidden failure): push_back and clear never have a precondition, and pop_front fails (assertion) exactly when
    the queue reports `empty()`, in every state reachable by a precondition-respecting history. -/
theorem C11_pop_precondition (d : α) (cap : Nat) (hcap : 0 < cap) (ops : List (Op α)) (s : Spec α) (q : CQ α)
    (hs : (Spec.init cap).run ops = some s) (hq : run (mk d cap) ops = some q) :
    (q.pop = none ↔ q.empty = true) ∧ (∀ x, ∃ q', q.push x = some q') := by
  obtain ⟨q', h1, h2⟩ := (rep_mk d hcap).run ops hs
  rw [hq] at h1; cases h1
  refine ⟨?_, fun x => let ⟨q', h, _⟩ := h2.push x; ⟨q', h⟩⟩
  unfold CQ.empty
  rw [h2.hempty]
  cases hi : s.items with
  | nil => simp [CQ.pop, h2.hempty, hi]
  | cons x xs => obtain ⟨q', h, _⟩ := h2.pop hi; simp [h]

/-- C11 (whole contents, not only the front): reading a queue by popping until empty yields the items of the
    specification in order. -/
theorem C11_drain (d : α) (cap : Nat) (hcap : 0 < cap) (ops : List (Op α)) (s : Spec α)
    (hs : (Spec.init cap).run ops = some s) (i : Nat) (hi : i < s.items.length) :
    ∃ q, run (mk d cap) (ops ++ List.replicate i .pop) = some q ∧ q.front = s.items[i]? := by
  have hrun : ∀ (i : Nat) (s : Spec α), i < s.items.length → ∃ s', s.run (List.replicate i .pop) = some s' ∧
      s'.items = s.items.drop i := by
    intro i
    induction i with
    | zero => intro s _; exact ⟨s, rfl, by simp⟩
    | succ n ih =>
      intro s hn
      cases h : s.items with
      | nil => rw [h] at hn; simp at hn
      | cons x xs =>
        obtain ⟨s', h1, h2⟩ := ih { s with items := xs, popped := x :: s.popped } (by
          rw [h] at hn; simp at hn; simpa using hn)
        exact ⟨s', by simp [List.replicate_succ, Spec.run, Spec.step, h, h1], by simpa using h2⟩
  have happ : ∀ (a b : List (Op α)) (s : Spec α), s.run (a ++ b) = (s.run a).bind (·.run b) := by
    intro a b
    induction a with
    | nil => intro s; rfl
    | cons o a ih =>
      intro s
      simp only [List.cons_append, Spec.run]
      cases s.step o with
      | none => rfl
      | some s1 => exact ih s1
  obtain ⟨s', h1, h2⟩ := hrun i s hi
  obtain ⟨q, hq1, hq2⟩ := C11_bounded_fifo d cap hcap (ops ++ List.replicate i .pop) s'
    (by rw [happ, hs]; exact h1)
  refine ⟨q, hq1, ?_⟩
  have := congrArg Obs.front hq2
  simp only [obs, Spec.obs, h2] at this
  rw [this]; simp [List.head?_drop]

/-- C12: after any history, popping `k` elements and then putting back `k` times restores the queue exactly
    (every observation, and the complete internal state). -/
theorem C12_putback_undoes_pops (d : α) (cap : Nat) (hcap : 0 < cap) (ops : List (Op α)) (s : Spec α) (q : CQ α)
    (hs : (Spec.init cap).run ops = some s) (hq : run (mk d cap) ops = some q) (k : Nat) (hk : k ≤ q.size) :
    run q (List.replicate k .pop ++ List.replicate k .putback) = some q := by
  obtain ⟨q', h1, h2⟩ := (rep_mk d hcap).run ops hs
  rw [hq] at h1; cases h1
  rw [h2.size] at hk
  clear hs hq
  have happ : ∀ (a b : List (Op α)) (s : CQ α), run s (a ++ b) = (run s a).bind (run · b) := by
    intro a b
    induction a with
    | nil => intro s; rfl
    | cons o a ih =>
      intro s
      simp only [List.cons_append, run]
      cases step s o with
      | none => rfl
      | some s1 => exact ih s1
  induction k generalizing q s with
  | zero => rfl
  | succ n ih =>
    cases hi : s.items with
    | nil => rw [hi] at hk; simp at hk
    | cons x xs =>
      obtain ⟨q1, hq1, hr1⟩ := h2.pop hi
      have e : List.replicate (n+1) (Op.pop (α := α)) ++ List.replicate (n+1) .putback =
          .pop :: ((List.replicate n .pop ++ List.replicate n .putback) ++ [.putback]) := by
        rw [List.replicate_succ, List.replicate_succ' (a := Op.putback)]; simp
      rw [e]
      simp only [run, step, hq1]
      rw [happ, ih _ q1 (by rw [hi] at hk; simpa using hk) hr1]
      have hlt : xs.length < s.cap := by have := h2.hlen; rw [hi] at this; simp at this; omega
      obtain ⟨q2, hq2, hr2⟩ := hr1.putback rfl hlt
      have e2 : q2 = q := by
        have hb := h2.hb; have hc := h2.hcap; have he := h2.hempty
        have hnf : q1.full = false := by rw [hr1.full_eq]; simp; omega
        unfold CQ.putback at hq2
        rw [hnf] at hq2
        simp only [Bool.false_eq_true, if_false] at hq2
        unfold CQ.pop at hq1
        rw [he, hi] at hq1
        simp only [List.isEmpty_cons, Bool.false_eq_true, if_false] at hq1
        rw [if_pos (by omega)] at hq1
        simp only [Option.some.injEq] at hq1
        subst hq1
        simp only at hq2
        rw [if_neg (by repeat' split
                       all_goals omega)] at hq2
        simp only [Option.some.injEq] at hq2
        subst hq2
        rw [hi] at he
        simp only [List.isEmpty_cons] at he
        cases q with
        | mk bf b e em =>
          simp only at *
          simp only [he, CQ.mk.injEq, true_and, and_true]
          repeat' split
          all_goals omega
      subst e2
      simp [run, step, hq2]

/-- C12 (with pushes in between): a putback after a pop restores the popped element at the front and the size grows
    by one, for every state in which the specification still remembers it (i.e. fewer pushes happened since than
    there was spare room). -/
theorem C12_putback_front (d : α) (cap : Nat) (hcap : 0 < cap) (ops : List (Op α)) (s : Spec α) (q : CQ α)
    (hs : (Spec.init cap).run ops = some s) (hq : run (mk d cap) ops = some q) (x : α) (ps : List α)
    (hp : s.popped = x :: ps) :
    ∃ q', q.putback = some q' ∧ q'.front = some x ∧ q'.size = q.size + 1 := by
  obtain ⟨q', h1, h2⟩ := (rep_mk d hcap).run ops hs
  rw [hq] at h1; cases h1
  have hlt : s.items.length < s.cap := by have := h2.hlen; rw [hp] at this; simp at this; omega
  obtain ⟨q2, h3, h4⟩ := h2.putback hp hlt
  refine ⟨q2, h3, ?_, ?_⟩
  · exact congrArg Obs.front h4.obs
  · rw [h4.size, h2.size]; simp

/-- `clear()` is equivalent to popping until empty, as documented. -/
theorem C11_clear_pops (d : α) (cap : Nat) (hcap : 0 < cap) (ops : List (Op α)) (s : Spec α) (q : CQ α)
    (hs : (Spec.init cap).run ops = some s) (hq : run (mk d cap) ops = some q) :
    run q (List.replicate q.size .pop) = some q.clear := by
  obtain ⟨q', h1, h2⟩ := (rep_mk d hcap).run ops hs
  rw [hq] at h1; cases h1
  rw [h2.size]
  clear hs hq
  generalize hn : s.items.length = n
  induction n generalizing q s with
  | zero =>
    have : s.items = [] := List.length_eq_zero_iff.1 hn
    have he := h2.he; have hm := h2.hempty; have hb := h2.hb
    rw [this] at he hm
    simp only [List.length_nil, Nat.add_zero, wrap, hb, if_true] at he
    cases q with
    | mk bf b e em => simp_all [run, CQ.clear]
  | succ n ih =>
    cases hi : s.items with
    | nil => rw [hi] at hn; simp at hn
    | cons x xs =>
      obtain ⟨q1, hq1, hr1⟩ := h2.pop hi
      simp only [List.replicate_succ, run, step, hq1]
      rw [ih _ q1 hr1 (by rw [hi] at hn; simpa using hn)]
      unfold CQ.pop at hq1
      have hb := h2.hb; have hc := h2.hcap
      rw [h2.hempty, hi] at hq1
      simp only [List.isEmpty_cons, Bool.false_eq_true, if_false] at hq1
      rw [if_pos (by omega)] at hq1
      simp only [Option.some.injEq] at hq1
      subst hq1
      rfl

/-- C13 (partial): a copy of a non-empty, non-full queue compares equal to the original (both ways), and every later
    history accepted by the bounded-FIFO specification started from the same contents gives the same observations on
    both.  Missing: full queues and empty queues with popped elements, for which the code violates the claim (below). -/
theorem C13_copy_partial [DecidableEq α] (d : α) (cap : Nat) (hcap : 0 < cap) (ops : List (Op α)) (s : Spec α) (q : CQ α)
    (hs : (Spec.init cap).run ops = some s) (hq : run (mk d cap) ops = some q) (hnf : q.full = false) :
    ∃ c, q.copy d = some c ∧ obs c = obs q ∧
      (q.empty = false → c.eq q = some true ∧ q.eq c = some true) ∧
      ∀ later s', Spec.run { s with popped := [] } later = some s' →
        ∃ q' c', run q later = some q' ∧ run c later = some c' ∧ obs q' = obs c' := by
  obtain ⟨q', h1, h2⟩ := (rep_mk d hcap).run ops hs
  rw [hq] at h1; cases h1
  have hlt : s.items.length < s.cap := by
    rw [h2.full_eq] at hnf; simp at hnf; have := h2.hlen; omega
  have hrep : Rep ⟨s.items ++ List.replicate (s.cap - s.items.length) d, 0, s.items.length, s.items.isEmpty⟩
      { s with popped := [] } := by
    constructor
    · simp; omega
    · exact h2.hpos
    · exact h2.hpos
    · simp; omega
    · simp [wrap, hlt]
    · rfl
    · intro i hi
      simp only [Nat.zero_add] at hi ⊢
      rw [List.getElem?_append_left (by unfold wrap; split <;> omega)]
      unfold wrap; rw [if_pos (by omega)]
    · intro i hi; simp at hi
  have hrep2 : Rep q { s with popped := [] } :=
    ⟨h2.hcap, h2.hpos, h2.hb, by simp; omega, h2.he, h2.hempty, h2.hitems, by intro i hi; simp at hi⟩
  refine ⟨_, h2.copy d, ?_, ?_, ?_⟩
  · rw [hrep.obs, h2.obs]; rfl
  · intro hne
    have hni : s.items ≠ [] := by
      intro hh; unfold CQ.empty at hne; rw [h2.hempty, hh] at hne; simp at hne
    constructor
    · unfold CQ.eq
      rw [hrep.size, h2.size, hrep.ranges hni, h2.ranges hni, equalWalk_same_len _ _ rfl]; simp
    · unfold CQ.eq
      rw [hrep.size, h2.size, hrep.ranges hni, h2.ranges hni, equalWalk_same_len _ _ rfl]; simp
  · intro later s' hl
    obtain ⟨a, ha, hra⟩ := hrep2.run later hl
    obtain ⟨b, hb, hrb⟩ := hrep.run later hl
    exact ⟨a, b, ha, hb, by rw [hra.obs, hrb.obs]⟩

/-- C13 (equality, partial): `operator==` on non-empty queues holds iff the logical contents agree, even for different
    capacities and positions in the buffer. -/
theorem C13_eq_partial [DecidableEq α] (d : α) (cap1 cap2 : Nat) (h1 : 0 < cap1) (h2 : 0 < cap2)
    (ops1 ops2 : List (Op α)) (s1 s2 : Spec α) (q1 q2 : CQ α)
    (hs1 : (Spec.init cap1).run ops1 = some s1) (hq1 : run (mk d cap1) ops1 = some q1)
    (hs2 : (Spec.init cap2).run ops2 = some s2) (hq2 : run (mk d cap2) ops2 = some q2)
    (hne : q1.empty = false) :
    q1.eq q2 = some (decide (s1.items = s2.items)) := by
  obtain ⟨q', e1, r1⟩ := (rep_mk d h1).run ops1 hs1
  rw [hq1] at e1; cases e1
  obtain ⟨q', e2, r2⟩ := (rep_mk d h2).run ops2 hs2
  rw [hq2] at e2; cases e2
  have hni : s1.items ≠ [] := by
    intro hh; unfold CQ.empty at hne; rw [r1.hempty, hh] at hne; simp at hne
  unfold CQ.eq
  rw [r1.size, r2.size]
  split
  · rename_i hl
    have : s1.items ≠ s2.items := fun hh => hl (by rw [hh])
    simp [this]
  · rename_i hl
    have hl : s1.items.length = s2.items.length := by omega
    have hni2 : s2.items ≠ [] := by
      intro hh; rw [hh] at hl; exact hni (List.length_eq_zero_iff.1 hl)
    rw [r1.ranges hni, r2.ranges hni2, equalWalk_same_len _ _ hl]

/-- C13 is violated for full queues: the copy of a full queue of capacity 1 is not `full()`, and the next
    `push_back` writes one past the end of its vector (undefined behaviour), while the original accepts it. -/
theorem C13_copy_full_violated :
    ∃ q c : CQ Nat, run (mk 0 1) [.push 7] = some q ∧ q.copy 0 = some c ∧
      q.full = true ∧ c.full = false ∧ c.push 8 = none ∧ (q.push 8).isSome :=
  ⟨⟨[7], 0, 0, false⟩, ⟨[7], 0, 1, false⟩, by decide, by decide, by decide, by decide, by decide, by decide⟩

/-- The failure above is not an accident of capacity 1: the copy of *every* full queue is broken. -/
theorem C13_copy_of_every_full_violated (d : α) (cap : Nat) (hcap : 0 < cap) (ops : List (Op α)) (s : Spec α) (q : CQ α)
    (hs : (Spec.init cap).run ops = some s) (hq : run (mk d cap) ops = some q) (hf : q.full = true) :
    ∃ c, q.copy d = some c ∧ c.full = false ∧ ∀ x, c.push x = none := by
  obtain ⟨q', h1, h2⟩ := (rep_mk d hcap).run ops hs
  rw [hq] at h1; cases h1
  rw [h2.full_eq] at hf
  simp only [beq_iff_eq] at hf
  refine ⟨_, h2.copy d, ?_, ?_⟩
  · have := h2.hpos; simp [CQ.full]; omega
  · intro x; simp [CQ.push, hf]

/-- C13 (equality of empty queues) is violated: two empty queues compare the stale storage, so a queue that pushed
    and popped an element is unequal to its own copy. -/
theorem C13_empty_eq_violated :
    ∃ q c : CQ Nat, run (mk 0 1) [.push 7, .pop] = some q ∧ q.copy 0 = some c ∧ q.empty = true ∧ c.empty = true ∧
      q.eq c = some false :=
  ⟨⟨[7], 0, 0, true⟩, ⟨[0], 0, 0, true⟩, by decide, by decide, by decide, by decide, by decide⟩

/-- … and two empty queues of different capacity may be compared out of bounds (undefined behaviour). -/
theorem C13_empty_eq_oob_violated : (mk (0 : Nat) 2).eq (mk 0 1) = none := by decide

/-! ### the hypotheses are met by non-trivial histories -/
example : ∃ s, (Spec.init 3).run [.push 1, .push 2, .push 3, .push 4, .pop, .pop, .putback, .push 5] = some s ∧
    s.items = [3, 4, 5] ∧ s.popped = [] := ⟨⟨3, [3, 4, 5], []⟩, rfl, rfl, rfl⟩
example : ∃ s, (Spec.init 4).run [.push 1, .push 2, .push 3, .pop, .pop, .push 4] = some s ∧
    s.items = [3, 4] ∧ s.popped = [2, 1] := ⟨⟨4, [3, 4], [2, 1]⟩, rfl, rfl, rfl⟩
example : ∃ q, run (mk 0 3) [.push 1, .push 2, .push 3, .push 4, .pop, .pop, .putback] = some q ∧
    q.full = false ∧ q.empty = false := ⟨⟨[4, 2, 3], 2, 1, false⟩, by decide, by decide, by decide⟩

end Verif.CircularQueue
