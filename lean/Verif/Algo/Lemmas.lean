import Verif.Algo.Model
import Verif.Algo.Spec
import Mathlib.Data.List.Chain

namespace Verif.Algo

variable {α β : Type}

/-! ### reduce -/

/-- The value a counter stands for: higher slots come first. -/
def val (op : α → α → α) (z : α) : List α → α
  | [] => z
  | s :: ss => op (val op z ss) s

theorem val_snoc {op : α → α → α} {z : α} (h : IsMonoid op z) (v : List α) (y : α) :
    val op z (v ++ [y]) = op y (val op z v) := by
  induction v with
  | nil => simp [val, h.left_id, h.right_id]
  | cons s ss ih => simp [val, ih, h.assoc]

section
variable [BEq α] [LawfulBEq α]

theorem counterLoop_val {op : α → α → α} {z : α} (h : IsMonoid op z) (v : List α) (x : α) :
    op (counterLoop op z v x).2.1 (val op z (counterLoop op z v x).1) = op (val op z v) x := by
  induction v generalizing x with
  | nil => simp [counterLoop, val, h.left_id, h.right_id]
  | cons s ss ih =>
    unfold counterLoop
    by_cases hs : s = z
    · subst hs; simp [val, h.left_id, h.right_id]
    · simp [hs, val, h.right_id, ih, h.assoc]

theorem addToCounter_val {op : α → α → α} {z : α} (h : IsMonoid op z) (v : List α) (x : α) :
    op (addToCounter op z v x).2.1 (val op z (addToCounter op z v x).1) = op (val op z v) x := by
  unfold addToCounter
  by_cases hx : x = z
  · subst hx; simp [h.left_id, h.right_id]
  · simp [hx, counterLoop_val h]

theorem balancedLoop_val {op : α → α → α} {z : α} (h : IsMonoid op z) (xs v : List α) :
    val op z (balancedLoop op z v xs).1 = xs.foldl op (val op z v) := by
  induction xs generalizing v with
  | nil => rfl
  | cons x xs ih =>
    unfold balancedLoop
    simp only [ih, List.foldl_cons]
    congr 1
    have := addToCounter_val h v x
    by_cases hy : (addToCounter op z v x).2.1 = z
    · simp [hy, h.left_id] at this ⊢; exact this
    · simp [hy, val_snoc h, this]

theorem nonzerosLoop_fold {op : α → α → α} {z : α} (hr : ∀ a, op a z = a) (xs : List α) (a : α) :
    (nonzerosLoop op z a xs).1 = xs.foldl op a := by
  induction xs generalizing a with
  | nil => rfl
  | cons x xs ih =>
    unfold nonzerosLoop
    by_cases hx : x = z
    · subst hx; simp [ih, hr]
    · simp [hx, ih]

theorem findNot_fold {op : α → α → α} {z : α} (hr : ∀ a, op a z = a) (xs : List α) (a : α) :
    xs.foldl op a = (findNot z xs).foldl op a := by
  induction xs generalizing a with
  | nil => rfl
  | cons x xs ih =>
    unfold findNot
    by_cases hx : z = x
    · subst hx; simp [← ih, hr]
    · simp [hx]

theorem reduceNonzeros_fold {op : α → α → α} {z : α} (hl : ∀ a, op z a = a)
    (hr : ∀ a, op a z = a) (xs : List α) : (reduceNonzeros op z xs).1 = xs.foldl op z := by
  unfold reduceNonzeros
  rw [findNot_fold hr xs z]
  split
  · next h => simp [h]
  · next x rest h => simp [h, nonzerosLoop_fold hr, hl]

theorem foldl_transpose_val {op : α → α → α} {z : α} (h : IsMonoid op z) (v : List α) (a : α) :
    v.foldl (transpose op) a = op (val op z v) a := by
  induction v generalizing a with
  | nil => simp [val, h.left_id]
  | cons s ss ih => simp [ih, val, transpose, h.assoc]

theorem reduceBalanced_fold {op : α → α → α} {z : α} (h : IsMonoid op z) (xs : List α) :
    (reduceBalanced op z xs).1 = xs.foldl op z := by
  unfold reduceBalanced
  simp only
  rw [reduceNonzeros_fold (by simp [transpose, h.right_id]) (by simp [transpose, h.left_id]),
    foldl_transpose_val h, balancedLoop_val h, h.right_id]
  rfl

/-! #### number of calls -/

/-- The number of elements different from `z`. -/
def nz (z : α) (v : List α) : Nat := v.countP (· != z)

theorem counterLoop_calls (op : α → α → α) (z : α) (v : List α) (x : α) :
    (counterLoop op z v x).2.2.length + nz z (counterLoop op z v x).1 +
      nz z [(counterLoop op z v x).2.1] ≤ nz z v + 1 := by
  induction v generalizing x with
  | nil => simp [counterLoop, nz, List.countP_cons]; split <;> omega
  | cons s ss ih =>
    unfold counterLoop
    by_cases hs : s = z
    · subst hs; simp [nz, List.countP_cons]; split <;> omega
    · have := ih (op s x)
      simp [hs, nz, List.countP_cons] at this ⊢; omega

theorem addToCounter_calls (op : α → α → α) (z : α) (v : List α) (x : α) :
    (addToCounter op z v x).2.2.length + nz z (addToCounter op z v x).1 +
      nz z [(addToCounter op z v x).2.1] ≤ nz z v + 1 := by
  unfold addToCounter
  by_cases hx : x = z
  · subst hx; simp [nz]
  · simpa [hx] using counterLoop_calls op z v x

theorem balancedLoop_calls (op : α → α → α) (z : α) (xs v : List α) :
    (balancedLoop op z v xs).2.length + nz z (balancedLoop op z v xs).1 ≤ nz z v + xs.length := by
  induction xs generalizing v with
  | nil => simp [balancedLoop]
  | cons x xs ih =>
    unfold balancedLoop
    have h1 := addToCounter_calls op z v x
    have h2 := ih (if (addToCounter op z v x).2.1 != z then
      (addToCounter op z v x).1 ++ [(addToCounter op z v x).2.1] else (addToCounter op z v x).1)
    have h3 : nz z (if (addToCounter op z v x).2.1 != z then
      (addToCounter op z v x).1 ++ [(addToCounter op z v x).2.1] else (addToCounter op z v x).1) =
        nz z (addToCounter op z v x).1 + nz z [(addToCounter op z v x).2.1] := by
      by_cases hy : (addToCounter op z v x).2.1 = z
      · simp [hy, nz]
      · simp [hy, nz, List.countP_append]
    simp only [List.length_append, List.length_cons]
    omega

theorem nonzerosLoop_calls (op : α → α → α) (z : α) (xs : List α) (a : α) :
    (nonzerosLoop op z a xs).2.length = nz z xs := by
  induction xs generalizing a with
  | nil => rfl
  | cons x xs ih =>
    unfold nonzerosLoop
    by_cases hx : x = z
    · subst hx; simp [ih, nz]
    · simp [hx, ih, nz]

theorem findNot_nz (z : α) (xs : List α) : nz z (findNot z xs) = nz z xs := by
  induction xs with
  | nil => rfl
  | cons x xs ih =>
    unfold findNot
    by_cases hx : z = x
    · subst hx; simpa [nz] using ih
    · simp [hx]

theorem findNot_head {z x : α} {xs rest : List α} (h : findNot z xs = x :: rest) : x ≠ z := by
  induction xs with
  | nil => simp [findNot] at h
  | cons y ys ih =>
    unfold findNot at h
    by_cases hy : z = y
    · simp [hy] at h; subst hy; exact ih h
    · simp [hy] at h
      obtain ⟨rfl, -⟩ := h
      exact fun e => hy e.symm

theorem reduceNonzeros_calls (op : α → α → α) (z : α) (xs : List α) :
    (reduceNonzeros op z xs).2.length = nz z xs - 1 := by
  unfold reduceNonzeros
  rw [← findNot_nz z xs]
  split
  · next h => simp [h, nz]
  · next x rest h =>
    have := findNot_head h
    simp [h, nonzerosLoop_calls, nz, this]

theorem counterLoop_calls_le (op : α → α → α) (z : α) (v : List α) (x : α) :
    (counterLoop op z v x).2.2.length ≤ nz z v := by
  induction v generalizing x with
  | nil => simp [counterLoop]
  | cons s ss ih =>
    unfold counterLoop
    by_cases hs : s = z
    · subst hs; simp
    · have := ih (op s x)
      simp [hs, nz] at this ⊢; omega

theorem addToCounter_calls_le (op : α → α → α) (z : α) (v : List α) (x : α) :
    (addToCounter op z v x).2.2.length ≤ nz z v := by
  unfold addToCounter
  split
  · simp
  · exact counterLoop_calls_le op z v x

theorem balancedLoop_calls_max (op : α → α → α) (z : α) (xs v : List α) :
    (balancedLoop op z v xs).2.length + max (nz z (balancedLoop op z v xs).1) 1 ≤
      max (nz z v) 1 + xs.length := by
  induction xs generalizing v with
  | nil => simp [balancedLoop]
  | cons x xs ih =>
    unfold balancedLoop
    have h0 := addToCounter_calls_le op z v x
    have h1 := addToCounter_calls op z v x
    have h2 := ih (if (addToCounter op z v x).2.1 != z then
      (addToCounter op z v x).1 ++ [(addToCounter op z v x).2.1] else (addToCounter op z v x).1)
    have h3 : nz z (if (addToCounter op z v x).2.1 != z then
      (addToCounter op z v x).1 ++ [(addToCounter op z v x).2.1] else (addToCounter op z v x).1) =
        nz z (addToCounter op z v x).1 + nz z [(addToCounter op z v x).2.1] := by
      by_cases hy : (addToCounter op z v x).2.1 = z
      · simp [hy, nz]
      · simp [hy, nz, List.countP_append]
    simp only [List.length_append, List.length_cons]
    omega

theorem reduceBalanced_calls (op : α → α → α) (z : α) (xs : List α) :
    (reduceBalanced op z xs).2.length ≤ xs.length - 1 := by
  unfold reduceBalanced
  have h2 := reduceNonzeros_calls (transpose op) z (balancedLoop op z [] xs).1
  simp only [List.length_append, List.length_map, h2]
  cases xs with
  | nil => simp [balancedLoop, nz]
  | cons x xs =>
    have h0 := addToCounter_calls op z [] x
    have h4 := addToCounter_calls_le op z [] x
    have h3 : nz z (if (addToCounter op z [] x).2.1 != z then
      (addToCounter op z [] x).1 ++ [(addToCounter op z [] x).2.1] else (addToCounter op z [] x).1) =
        nz z (addToCounter op z [] x).1 + nz z [(addToCounter op z [] x).2.1] := by
      by_cases hy : (addToCounter op z [] x).2.1 = z
      · simp [hy, nz]
      · simp [hy, nz, List.countP_append]
    have h5 := balancedLoop_calls_max op z xs (if (addToCounter op z [] x).2.1 != z then
      (addToCounter op z [] x).1 ++ [(addToCounter op z [] x).2.1] else (addToCounter op z [] x).1)
    have h6 : nz z ([] : List α) = 0 := rfl
    unfold balancedLoop
    simp only [List.length_append, List.length_cons]
    omega

/-! #### nesting depth -/

/-- A perfect tree of depth `i`. -/
def Perfect : Nat → Tree α → Prop
  | 0, .leaf _ => True
  | i + 1, .node l r => Perfect i l ∧ Perfect i r
  | _, _ => False

theorem Perfect.depth : ∀ {i : Nat} {t : Tree α}, Perfect i t → t.depth = i
  | 0, .leaf _, _ => rfl
  | i + 1, .node l r, h => by simp [Tree.depth, Perfect.depth h.1, Perfect.depth h.2]

theorem Perfect.length : ∀ {i : Nat} {t : Tree α}, Perfect i t → t.leaves.length = 2 ^ i
  | 0, .leaf _, _ => rfl
  | i + 1, .node l r, h => by
    simp [Tree.leaves, Perfect.length h.1, Perfect.length h.2, Nat.pow_succ]; omega

/-- The slots `v`, the first of which has index `i`, hold the values of perfect trees whose
    operands, from the highest slot down, are `ls`. -/
inductive Slots (op : α → α → α) (z : α) : Nat → List α → List α → Prop
  | nil (i : Nat) : Slots op z i [] []
  | empty {i : Nat} {ss ls : List α} : Slots op z (i + 1) ss ls → Slots op z i (z :: ss) ls
  | full {i : Nat} {ss ls : List α} {t : Tree α} : Slots op z (i + 1) ss ls → Perfect i t →
      t.eval op ≠ z → Slots op z i (t.eval op :: ss) (ls ++ t.leaves)

theorem Slots.snoc {op : α → α → α} {z : α} {i : Nat} {v ls : List α} (h : Slots op z i v ls)
    {t : Tree α} (ht : Perfect (i + v.length) t) (hz : t.eval op ≠ z) :
    Slots op z i (v ++ [t.eval op]) (t.leaves ++ ls) := by
  induction h with
  | nil i => simpa using Slots.full (Slots.nil _) (by simpa using ht) hz
  | empty _ ih =>
    exact Slots.empty (ih (by simpa [Nat.add_assoc, Nat.add_comm 1] using ht))
  | full _ hp he ih =>
    rw [← List.append_assoc]
    exact Slots.full (ih (by simpa [Nat.add_assoc, Nat.add_comm 1] using ht)) hp he

theorem counterLoop_slots {op : α → α → α} {z : α} {N : Prop}
    (hN : N → ∀ a b, a ≠ z → b ≠ z → op a b ≠ z) {i : Nat} {v ls : List α}
    (h : Slots op z i v ls) {t : Tree α} (ht : Perfect i t) (hx : N → t.eval op ≠ z) :
    ((counterLoop op z v (t.eval op)).2.1 = z ∧
      ∃ ls', Slots op z i (counterLoop op z v (t.eval op)).1 ls' ∧ ls'.Sublist (ls ++ t.leaves) ∧
        (N → ls' = ls ++ t.leaves)) ∨
    ∃ t' ls', (counterLoop op z v (t.eval op)).2.1 = t'.eval op ∧ Perfect (i + v.length) t' ∧
      (counterLoop op z v (t.eval op)).1.length = v.length ∧ (N → t'.eval op ≠ z) ∧
      Slots op z i (counterLoop op z v (t.eval op)).1 ls' ∧ t'.leaves ++ ls' = ls ++ t.leaves := by
  induction h generalizing t with
  | nil i =>
    right
    exact ⟨t, [], by simp [counterLoop], by simpa using ht, rfl, hx, by
      simpa [counterLoop] using Slots.nil i, by simp⟩
  | @empty i ss ls hs ih =>
    left
    simp only [counterLoop, bne_self_eq_false, Bool.false_eq_true, if_false, true_and]
    by_cases hz : t.eval op = z
    · refine ⟨ls, by rw [hz]; exact Slots.empty hs, List.sublist_append_left _ _, ?_⟩
      exact fun n => absurd hz (hx n)
    · exact ⟨_, Slots.full hs ht hz, List.Sublist.refl _, fun _ => rfl⟩
  | @full i ss ls s hs hp he ih =>
    have hne : (s.eval op != z) = true := by simpa using he
    have := ih (t := .node s t) ⟨hp, ht⟩ (fun n => hN n _ _ he (hx n))
    simp only [counterLoop, hne, if_true]
    simp only [Tree.eval, Tree.leaves] at this
    rcases this with ⟨h1, ls', h2, h3, h4⟩ | ⟨t', ls', h1, h2, h3, h4, h5, h6⟩
    · left
      refine ⟨h1, ls', Slots.empty h2, ?_, ?_⟩
      · simpa [List.append_assoc] using h3
      · intro n; simpa [List.append_assoc] using h4 n
    · right
      refine ⟨t', ls', h1, ?_, ?_, h4, Slots.empty h5, ?_⟩
      · simpa [Nat.add_assoc, Nat.add_comm 1] using h2
      · simpa using h3
      · simpa [List.append_assoc] using h6

theorem balancedLoop_slots {op : α → α → α} {z : α} {N : Prop}
    (hN : N → ∀ a b, a ≠ z → b ≠ z → op a b ≠ z) (xs : List α) (hxs : N → ∀ x ∈ xs, x ≠ z)
    {v ls : List α} (h : Slots op z 0 v ls) :
    ∃ ls', Slots op z 0 (balancedLoop op z v xs).1 ls' ∧ ls'.Sublist (ls ++ xs) ∧
      (N → ls' = ls ++ xs) := by
  induction xs generalizing v ls with
  | nil => exact ⟨ls, h, by simp, by simp⟩
  | cons x xs ih =>
    have hxs' : N → ∀ y ∈ xs, y ≠ z := fun n y hy => hxs n y (List.mem_cons_of_mem _ hy)
    have key : ∃ ls1, Slots op z 0 (if (addToCounter op z v x).2.1 != z then
        (addToCounter op z v x).1 ++ [(addToCounter op z v x).2.1] else (addToCounter op z v x).1)
        ls1 ∧ ls1.Sublist (ls ++ [x]) ∧ (N → ls1 = ls ++ [x]) := by
      by_cases hx : x = z
      · refine ⟨ls, by simpa [addToCounter, hx] using h, List.sublist_append_left _ _, ?_⟩
        exact fun n => absurd hx (hxs n x (by simp))
      · have := counterLoop_slots hN h (t := .leaf x) trivial (fun _ => hx)
        simp only [Tree.eval, Tree.leaves] at this
        simp only [addToCounter, beq_iff_eq, hx, if_false]
        rcases this with ⟨h1, ls', h2, h3, h4⟩ | ⟨t', ls', h1, h2, h3, h4, h5, h6⟩
        · exact ⟨ls', by simpa [h1] using h2, h3, h4⟩
        · by_cases hz : t'.eval op = z
          · refine ⟨ls', by simpa [h1, hz] using h5, ?_, fun n => absurd hz (h4 n)⟩
            rw [← h6]; exact List.sublist_append_right _ _
          · refine ⟨t'.leaves ++ ls', ?_, by rw [h6], fun _ => h6⟩
            rw [h1, if_pos (by simpa using hz)]
            exact Slots.snoc h5 (by rw [h3]; exact h2) hz
    obtain ⟨ls1, h1, h2, h3⟩ := key
    obtain ⟨ls2, h4, h5, h6⟩ := ih hxs' h1
    refine ⟨ls2, by simpa [balancedLoop] using h4, ?_, ?_⟩
    · refine h5.trans ?_
      have := h2.append (List.Sublist.refl xs)
      simpa using this
    · intro n; simp [h6 n, h3 n]

theorem nonzerosLoop_tree {op : α → α → α} {z : α} {i : Nat} {v ls : List α}
    (h : Slots op z i v ls) {a : Tree α} (hd : a.depth ≤ i) (hl : 2 ^ a.depth < 2 * a.leaves.length) :
    ∃ t : Tree α, t.eval op = (nonzerosLoop (transpose op) z (a.eval op) v).1 ∧
      t.leaves = ls ++ a.leaves ∧ 2 ^ t.depth < 2 * t.leaves.length := by
  induction h generalizing a with
  | nil => exact ⟨a, rfl, by simp, hl⟩
  | empty _ ih =>
    simp only [nonzerosLoop, bne_self_eq_false, Bool.false_eq_true, if_false]
    exact ih (by omega) hl
  | @full i ss ls s hs hp he ih =>
    have hne : (s.eval op != z) = true := by simpa using he
    have hdep : (Tree.node s a).depth = i + 1 := by
      have := hp.depth
      simp only [Tree.depth]; omega
    have hpos : 0 < a.leaves.length := by
      have : 0 < 2 ^ a.depth := Nat.pow_pos (by omega)
      omega
    obtain ⟨t, h1, h2, h3⟩ := ih (a := .node s a) (by omega) (by
      rw [hdep]
      simp only [Tree.leaves, List.length_append, hp.length, Nat.pow_succ]
      omega)
    refine ⟨t, ?_, by simpa [Tree.leaves] using h2, h3⟩
    rw [h1]
    simp [nonzerosLoop, hne, transpose, Tree.eval]

theorem reduceNonzeros_tree {op : α → α → α} {z : α} {i : Nat} {v ls : List α}
    (h : Slots op z i v ls) :
    ((reduceNonzeros (transpose op) z v).1 = z ∧ ls = []) ∨
    ∃ t : Tree α, t.eval op = (reduceNonzeros (transpose op) z v).1 ∧
      t.leaves = ls ∧ 2 ^ t.depth < 2 * t.leaves.length := by
  induction h with
  | nil => left; simp [reduceNonzeros, findNot]
  | empty _ ih => simpa [reduceNonzeros, findNot] using ih
  | @full i ss ls s hs hp he ih =>
    right
    have hne : (z == s.eval op) = false := by simpa using fun e : z = _ => he e.symm
    have := nonzerosLoop_tree hs (a := s) (by have := hp.depth; omega) (by
      rw [hp.depth, hp.length]
      have : 0 < 2 ^ i := Nat.pow_pos (by omega)
      omega)
    simpa [reduceNonzeros, findNot, hne] using this

theorem reduceBalanced_tree {op : α → α → α} {z : α} {N : Prop}
    (hN : N → ∀ a b, a ≠ z → b ≠ z → op a b ≠ z) (xs : List α) (hxs : N → ∀ x ∈ xs, x ≠ z) :
    ∃ ls : List α, ls.Sublist xs ∧ (N → ls = xs) ∧
    (((reduceBalanced op z xs).1 = z ∧ ls = []) ∨
    ∃ t : Tree α, t.eval op = (reduceBalanced op z xs).1 ∧
      t.leaves = ls ∧ 2 ^ t.depth < 2 * t.leaves.length) := by
  obtain ⟨ls, h1, h2, h3⟩ := balancedLoop_slots hN xs hxs (Slots.nil (op := op) (z := z) 0)
  exact ⟨ls, by simpa using h2, by simpa using h3, reduceNonzeros_tree h1⟩

end

/-! ### sorted -/

theorem adjacentFind_le (pred : α → α → Bool) (xs : List α) :
    adjacentFind pred xs ≤ xs.length := by
  induction xs with
  | nil => simp [adjacentFind]
  | cons a t ih =>
    cases t with
    | nil => simp [adjacentFind]
    | cons b t =>
      simp only [adjacentFind]
      split
      · simp
      · simpa using ih

theorem adjacentFind_eq_length (pred : α → α → Bool) (xs : List α) :
    adjacentFind pred xs = xs.length ↔ xs.IsChain (fun a b => pred a b = false) := by
  induction xs with
  | nil => simp [adjacentFind]
  | cons a t ih =>
    cases t with
    | nil => simp [adjacentFind]
    | cons b t =>
      simp only [adjacentFind]
      by_cases h : pred a b = true
      · simp [h]
      · simp [h] at ih ⊢; exact ih

/-- Between the start and the offset found there is no bad pair; at it there is one. -/
theorem adjacentFind_spec (pred : α → α → Bool) (xs : List α) :
    (xs.take (adjacentFind pred xs + 1)).IsChain (fun a b => pred a b = false) ∧
      (adjacentFind pred xs < xs.length → adjacentFind pred xs + 1 < xs.length ∧
        ¬ (xs.take (adjacentFind pred xs + 2)).IsChain (fun a b => pred a b = false)) := by
  induction xs with
  | nil => simp [adjacentFind]
  | cons a t ih =>
    cases t with
    | nil => simp [adjacentFind]
    | cons b t =>
      simp only [adjacentFind]
      by_cases h : pred a b = true
      · simp [h]
      · simp [h] at ih ⊢
        exact ih

end Verif.Algo
