import Verif.Selection.Model
import Verif.Selection.Spec
import Verif.Permute.Props
namespace Verif.Selection

theorem toggled_nil (b : Bool) (i : Nat) : toggled b [] i = b := by simp [toggled]

theorem toggled_cons (b : Bool) (x : Nat) (xs : List Nat) (i : Nat) :
    toggled b (x :: xs) i = if x ≤ i then toggled (!b) xs i else toggled b xs i := by
  unfold toggled
  by_cases h : x ≤ i
  · simp only [List.filter_cons, h, decide_true, if_true, List.length_cons]
    generalize (List.filter (fun b => decide (b ≤ i)) xs).length = n
    have : (decide ((n + 1) % 2 = 1)) = !(decide (n % 2 = 1)) := by
      by_cases h2 : n % 2 = 1
      · have : ¬ ((n+1) % 2 = 1) := by omega
        simp [h2, this]
      · have : (n+1) % 2 = 1 := by omega
        simp [h2, this]
    rw [this]
    cases b <;> cases decide (n % 2 = 1) <;> rfl
  · simp [h]

theorem toggled_gt (b : Bool) (xs : List Nat) (i : Nat) (h : ∀ x ∈ xs, i < x) : toggled b xs i = b := by
  induction xs with
  | nil => exact toggled_nil b i
  | cons x xs ih =>
    rw [toggled_cons, if_neg (by have := h x (by simp); omega)]
    exact ih (fun y hy => h y (by simp [hy]))

theorem toggled_append (b : Bool) (xs ys : List Nat) (i : Nat) :
    toggled b (xs ++ ys) i = toggled (toggled b xs i) ys i := by
  induction xs generalizing b with
  | nil => simp [toggled_nil]
  | cons x xs ih =>
    rw [List.cons_append, toggled_cons, toggled_cons]
    split
    · exact ih _
    · exact ih _

theorem toggled_not (b : Bool) (xs : List Nat) (i : Nat) : toggled (!b) xs i = !toggled b xs i := by
  unfold toggled; cases b <;> simp [Bool.beq_eq_decide_eq]

theorem toggled_all_le (b : Bool) (xs : List Nat) (i : Nat) (h : ∀ x ∈ xs, x ≤ i) :
    toggled b xs i = (b != decide (xs.length % 2 = 1)) := by
  unfold toggled
  rw [List.filter_eq_self.2]
  intro x hx; simpa using h x hx

/-! ### sorted lists -/

abbrev Sorted (l : List Nat) : Prop := l.Pairwise (· < ·)

theorem push_ok (s : Sel) (x : Nat) (h : ∀ y ∈ s.bounds, y < x) :
    s.push x = some ⟨s.start, s.bounds ++ [x]⟩ := by
  unfold Sel.push
  cases hl : s.bounds.getLast? with
  | none => rfl
  | some y =>
    have := List.mem_of_getLast? hl
    simp [h y this]

theorem pushAll_ok (s : Sel) (xs : List Nat) (hs : Sorted xs) (h : ∀ y ∈ s.bounds, ∀ x ∈ xs, y < x) :
    s.pushAll xs = some ⟨s.start, s.bounds ++ xs⟩ := by
  induction xs generalizing s with
  | nil => simp [Sel.pushAll]
  | cons x xs ih =>
    have hx := List.pairwise_cons.1 hs
    simp only [Sel.pushAll]
    rw [push_ok s x (fun y hy => h y hy x (by simp))]
    simp only
    rw [ih _ hx.2]
    · simp
    · intro y hy z hz
      simp only [List.mem_append, List.mem_singleton] at hy
      rcases hy with hy | hy
      · exact h y hy z (by simp [hz])
      · subst hy; exact hx.1 z hz

/-! ### selection_operation -/

theorem remainderLoop_sub (pred : Bool → Bool → Bool) (o : Bool) (l : List Nat) (this prev : Bool) :
    (remainderLoop pred o l this prev).Sublist l := by
  induction l generalizing this prev with
  | nil => simp [remainderLoop]
  | cons x xs ih =>
    unfold remainderLoop
    simp only
    split
    · simpa using ih _ _
    · simpa using (ih _ _).cons x

theorem remainderLoop_mem (pred : Bool → Bool → Bool) (o : Bool) (l : List Nat) (this : Bool) (i : Nat) (hs : Sorted l) :
    toggled (pred this o) (remainderLoop pred o l this (pred this o)) i = pred (toggled this l i) o := by
  induction l generalizing this with
  | nil => simp [remainderLoop, toggled_nil]
  | cons x xs ih =>
    have hx := List.pairwise_cons.1 hs
    by_cases hxi : x ≤ i
    · unfold remainderLoop
      simp only
      rw [toggled_cons this, if_pos hxi, ← ih (!this) hx.2]
      by_cases hp : pred this o = pred (!this) o
      · simp [hp]
      · rw [if_pos hp, List.singleton_append, toggled_cons, if_pos hxi]
        congr 1
        cases h1 : pred this o <;> cases h2 : pred (!this) o <;> simp_all
    · have hg : ∀ y ∈ x :: xs, i < y := by
        intro y hy
        rcases List.mem_cons.1 hy with h | h
        · omega
        · have := hx.1 y h; omega
      rw [toggled_gt _ (x :: xs) i hg, toggled_gt]
      intro y hy
      exact hg y ((remainderLoop_sub pred o (x :: xs) this _).subset hy)

theorem remainder_sub (pred : Bool → Bool → Bool) (o : Bool) (l : List Nat) (this : Bool) :
    (remainder l this o pred).Sublist l := remainderLoop_sub _ _ _ _ _

theorem remainder_mem (pred : Bool → Bool → Bool) (o : Bool) (l : List Nat) (this : Bool) (i : Nat) (hs : Sorted l) :
    toggled (pred this o) (remainder l this o pred) i = pred (toggled this l i) o :=
  remainderLoop_mem pred o l this i hs

/-- the output only contains boundaries of the operands, and is strictly increasing -/
theorem opLoop_sub (pred : Bool → Bool → Bool) (s1 s2 : List Nat) (in1 in2 prev : Bool)
    (h1 : Sorted s1) (h2 : Sorted s2) :
    (∀ z ∈ opLoop pred s1 s2 in1 in2 prev, z ∈ s1 ∨ z ∈ s2) ∧ Sorted (opLoop pred s1 s2 in1 in2 prev) := by
  fun_induction opLoop pred s1 s2 in1 in2 prev with
  | case1 s2 in1 in2 prev =>
    exact ⟨fun z hz => Or.inr ((remainder_sub _ _ _ _).subset hz), List.Pairwise.sublist (remainder_sub _ _ _ _) h2⟩
  | case2 x xs in1 in2 prev =>
    exact ⟨fun z hz => Or.inl ((remainder_sub _ _ _ _).subset hz), List.Pairwise.sublist (remainder_sub _ _ _ _) h1⟩
  | case3 x xs y ys in1 in2 prev next in1' in2' cur ih1 ih2 ih3 =>
    have hx := List.pairwise_cons.1 h1
    have hy := List.pairwise_cons.1 h2
    have hnext : next = if x < y then x else y := rfl
    by_cases e1 : x = next
    · by_cases e2 : y = next
      · obtain ⟨i1, i2⟩ := ih1 hx.2 hy.2
        simp only [if_pos e1, if_pos e2]
        constructor
        · intro z hz
          rcases List.mem_append.1 hz with hz | hz
          · split at hz
            · simp at hz; subst hz; left; simp [← e1]
            · simp at hz
          · rcases i1 z hz with h | h
            · left; simp [h]
            · right; simp [h]
        · refine List.pairwise_append.2 ⟨by split <;> simp, i2, ?_⟩
          intro a ha b hb
          split at ha
          · simp at ha; subst ha
            rcases i1 b hb with h | h
            · rw [← e1]; exact hx.1 b h
            · rw [← e2]; exact hy.1 b h
          · simp at ha
      · obtain ⟨i1, i2⟩ := ih2 hx.2 h2
        have hxy : x < y := by
          rcases Nat.lt_or_ge x y with h | h
          · exact h
          · rw [if_neg (by omega)] at hnext; exact absurd hnext.symm e2
        simp only [if_pos e1, if_neg e2]
        constructor
        · intro z hz
          rcases List.mem_append.1 hz with hz | hz
          · split at hz
            · simp at hz; subst hz; left; simp [← e1]
            · simp at hz
          · rcases i1 z hz with h | h
            · left; simp [h]
            · right; exact h
        · refine List.pairwise_append.2 ⟨by split <;> simp, i2, ?_⟩
          intro a ha b hb
          split at ha
          · simp at ha; subst ha
            rcases i1 b hb with h | h
            · rw [← e1]; exact hx.1 b h
            · rw [← e1]
              rcases List.mem_cons.1 h with h | h
              · omega
              · have := hy.1 b h; omega
          · simp at ha
    · have hnx : ¬ x < y := fun h => e1 (by rw [hnext, if_pos h])
      have e2 : y = next := by rw [hnext, if_neg hnx]
      obtain ⟨i1, i2⟩ := ih3 h1 hy.2
      simp only [if_neg e1, dif_pos e2]
      have hyx : y < x := by rcases Nat.lt_or_ge y x with h | h
                             · exact h
                             · exfalso; apply e1; rw [← e2]; omega
      constructor
      · intro z hz
        rcases List.mem_append.1 hz with hz | hz
        · split at hz
          · simp at hz; subst hz; right; simp [← e2]
          · simp at hz
        · rcases i1 z hz with h | h
          · left; exact h
          · right; simp [h]
      · refine List.pairwise_append.2 ⟨by split <;> simp, i2, ?_⟩
        intro a ha b hb
        split at ha
        · simp at ha; subst ha
          rw [← e2]
          rcases i1 b hb with h | h
          · rcases List.mem_cons.1 h with h | h
            · omega
            · have := hx.1 b h; omega
          · exact hy.1 b h
        · simp at ha

theorem toggle_out (prev cur : Bool) (n : Nat) (out : List Nat) (i : Nat) (h : n ≤ i) :
    toggled prev ((if prev ≠ cur then [n] else []) ++ out) i = toggled cur out i := by
  by_cases hp : prev = cur
  · simp [hp]
  · rw [if_pos hp, List.singleton_append, toggled_cons, if_pos h]
    congr 1
    cases prev <;> cases cur <;> simp_all

theorem opLoop_mem (pred : Bool → Bool → Bool) (hsym : ∀ a b, pred a b = pred b a) (s1 s2 : List Nat)
    (in1 in2 prev : Bool) (hprev : prev = pred in1 in2) (h1 : Sorted s1) (h2 : Sorted s2) (i : Nat) :
    toggled prev (opLoop pred s1 s2 in1 in2 prev) i = pred (toggled in1 s1 i) (toggled in2 s2 i) := by
  have hsub := opLoop_sub pred s1 s2 in1 in2 prev h1 h2
  by_cases hi : ∀ z, (z ∈ s1 ∨ z ∈ s2) → i < z
  · rw [toggled_gt _ _ _ (fun z hz => hi z (hsub.1 z hz)), toggled_gt _ s1 _ (fun z hz => hi z (Or.inl hz)),
      toggled_gt _ s2 _ (fun z hz => hi z (Or.inr hz)), hprev]
  · clear hsub
    revert hi
    fun_induction opLoop pred s1 s2 in1 in2 prev with
    | case1 s2 in1 in2 prev =>
      intro _
      rw [hprev, toggled_nil, hsym in1 in2, remainder_mem _ _ _ _ _ h2, hsym]
    | case2 x xs in1 in2 prev =>
      intro _
      rw [hprev, toggled_nil, remainder_mem _ _ _ _ _ h1]
    | case3 x xs y ys in1 in2 prev next in1' in2' cur ih1 ih2 ih3 =>
      intro hi
      have hx := List.pairwise_cons.1 h1
      have hy := List.pairwise_cons.1 h2
      have hnext : next = if x < y then x else y := rfl
      -- some boundary is at or below i, hence so is the smallest one
      have hni : next ≤ i := by
        rcases Nat.lt_or_ge i next with h | h
        · exfalso; apply hi
          have hx' : i < x := by rw [hnext] at h; split at h <;> omega
          have hy' : i < y := by rw [hnext] at h; split at h <;> omega
          rintro z (hz | hz)
          · rcases List.mem_cons.1 hz with hz | hz
            · omega
            · have := hx.1 z hz; omega
          · rcases List.mem_cons.1 hz with hz | hz
            · omega
            · have := hy.1 z hz; omega
        · exact h
      rw [toggle_out _ _ _ _ _ hni]
      -- the tail: either all remaining are above i, or the induction hypothesis applies
      have tail : ∀ (t1 t2 : List Nat), Sorted t1 → Sorted t2 →
          (¬(∀ z, (z ∈ t1 ∨ z ∈ t2) → i < z) → toggled cur (opLoop pred t1 t2 in1' in2' cur) i =
            pred (toggled in1' t1 i) (toggled in2' t2 i)) →
          toggled cur (opLoop pred t1 t2 in1' in2' cur) i = pred (toggled in1' t1 i) (toggled in2' t2 i) := by
        intro t1 t2 ht1 ht2 hh
        by_cases hz : ∀ z, (z ∈ t1 ∨ z ∈ t2) → i < z
        · have hsub := opLoop_sub pred t1 t2 in1' in2' cur ht1 ht2
          rw [toggled_gt _ _ _ (fun z h => hz z (hsub.1 z h)), toggled_gt _ t1 _ (fun z h => hz z (Or.inl h)),
            toggled_gt _ t2 _ (fun z h => hz z (Or.inr h))]
        · exact hh hz
      by_cases e1 : x = next
      · have hxi : x ≤ i := by omega
        by_cases e2 : y = next
        · have hyi : y ≤ i := by omega
          simp only [if_pos e1, if_pos e2]
          rw [tail xs ys hx.2 hy.2 (fun h => ih1 rfl hx.2 hy.2 h)]
          rw [toggled_cons, toggled_cons, if_pos hxi, if_pos hyi]
          simp only [in1', in2', dif_pos e1, dif_pos e2]
        · simp only [if_pos e1, if_neg e2]
          rw [tail xs (y :: ys) hx.2 h2 (fun h => ih2 rfl hx.2 h2 h)]
          rw [toggled_cons in1 x, if_pos hxi]
          simp only [in1', in2', dif_pos e1, dif_neg e2]
      · have hnx : ¬ x < y := fun h => e1 (by rw [hnext, if_pos h])
        have e2 : y = next := by rw [hnext, if_neg hnx]
        have hyi : y ≤ i := by omega
        simp only [if_neg e1, dif_pos e2]
        rw [tail (x :: xs) ys h1 hy.2 (fun h => ih3 rfl h1 hy.2 h)]
        rw [toggled_cons in2 y, if_pos hyi]
        simp only [in1', in2', dif_neg e1, dif_pos e2]

theorem operation_spec (pred : Bool → Bool → Bool) (hsym : ∀ a b, pred a b = pred b a) (s1 s2 : List Nat)
    (in1 in2 : Bool) (h1 : Sorted s1) (h2 : Sorted s2) :
    Sorted (operation s1 s2 in1 in2 pred) ∧ ∀ i,
      toggled (pred in1 in2) (operation s1 s2 in1 in2 pred) i = pred (toggled in1 s1 i) (toggled in2 s2 i) := by
  unfold operation
  split
  · refine ⟨List.Pairwise.sublist (remainder_sub _ _ _ _) h2, fun i => ?_⟩
    rw [toggled_nil, hsym in1 in2, remainder_mem _ _ _ _ _ h2, hsym]
  · refine ⟨List.Pairwise.sublist (remainder_sub _ _ _ _) h1, fun i => ?_⟩
    rw [toggled_nil, remainder_mem _ _ _ _ _ h1]
  · exact ⟨(opLoop_sub _ _ _ _ _ _ h1 h2).2, fun i => opLoop_mem pred hsym _ _ _ _ _ rfl h1 h2 i⟩

/-! ### uniqueness of boundary lists -/

theorem bounds_unique (b : Bool) (l1 l2 : List Nat) (h1 : Sorted l1) (h2 : Sorted l2)
    (h : ∀ i, toggled b l1 i = toggled b l2 i) : l1 = l2 := by
  induction l1 generalizing b l2 with
  | nil =>
    cases l2 with
    | nil => rfl
    | cons y ys =>
      have hy := List.pairwise_cons.1 h2
      have := h y
      rw [toggled_nil, toggled_cons, if_pos (Nat.le_refl y), toggled_gt _ _ _ hy.1] at this
      simp at this
  | cons x xs ih =>
    have hx := List.pairwise_cons.1 h1
    cases l2 with
    | nil =>
      have := h x
      rw [toggled_nil, toggled_cons, if_pos (Nat.le_refl x), toggled_gt _ _ _ hx.1] at this
      simp at this
    | cons y ys =>
      have hy := List.pairwise_cons.1 h2
      have hxy : x = y := by
        rcases Nat.lt_trichotomy x y with hlt | he | hlt
        · have := h x
          rw [toggled_cons, if_pos (Nat.le_refl x), toggled_gt _ _ _ hx.1, toggled_gt b (y :: ys)] at this
          · simp at this
          · intro z hz
            rcases List.mem_cons.1 hz with hz | hz
            · omega
            · have := hy.1 z hz; omega
        · exact he
        · have := h y
          rw [toggled_cons b y, if_pos (Nat.le_refl y), toggled_gt _ _ _ hy.1, toggled_gt b (x :: xs)] at this
          · simp at this
          · intro z hz
            rcases List.mem_cons.1 hz with hz | hz
            · omega
            · have := hx.1 z hz; omega
      subst hxy
      rw [ih (!b) ys hx.2 hy.2]
      intro i
      have := h i
      rw [toggled_cons, toggled_cons] at this
      split at this
      · exact this
      · rename_i hgt
        rw [toggled_gt, toggled_gt]
        · intro z hz; have := hy.1 z hz; omega
        · intro z hz; have := hx.1 z hz; omega

theorem start_unique (b1 b2 : Bool) (l1 l2 : List Nat)
    (h : ∀ i, toggled b1 l1 i = toggled b2 l2 i) (h0 : ∀ x ∈ l1, 0 < x) (h0' : ∀ x ∈ l2, 0 < x) : b1 = b2 := by
  have := h 0
  rwa [toggled_gt _ _ _ h0, toggled_gt _ _ _ h0'] at this

theorem equalWalk_same_len (xs ys : List Nat) (h : xs.length = ys.length) :
    equalWalk xs ys = some (decide (xs = ys)) := by
  induction xs generalizing ys with
  | nil => cases ys with
    | nil => rfl
    | cons y ys => simp at h
  | cons x xs ih =>
    cases ys with
    | nil => simp at h
    | cons y ys =>
      simp only [List.length_cons, Nat.add_right_cancel_iff] at h
      unfold equalWalk
      split
      · rename_i hxy; rw [ih ys h]; simp [hxy]
      · rename_i hxy; simp [hxy]

theorem equalWalk_true {xs ys : List Nat} (h : equalWalk xs ys = some true) : ∃ t, ys = xs ++ t := by
  induction xs generalizing ys with
  | nil => exact ⟨ys, rfl⟩
  | cons x xs ih =>
    cases ys with
    | nil => simp [equalWalk] at h
    | cons y ys =>
      simp only [equalWalk] at h
      split at h
      · rename_i hxy; obtain ⟨t, ht⟩ := ih h; exact ⟨t, by rw [ht, hxy]; rfl⟩
      · simp at h

theorem equalWalk_false {xs ys : List Nat} (h : equalWalk xs ys = some false) : xs ≠ ys := by
  intro e; subst e
  rw [equalWalk_same_len _ _ rfl] at h; simp at h

theorem takeWhile_le_filter (l : List Nat) (h : Sorted l) (i : Nat) :
    l.takeWhile (fun b => decide (b ≤ i)) = l.filter (fun b => decide (b ≤ i)) := by
  induction l with
  | nil => rfl
  | cons x xs ih =>
    have hx := List.pairwise_cons.1 h
    by_cases hxi : x ≤ i
    · simp [hxi, ih hx.2]
    · simp only [List.takeWhile_cons, List.filter_cons, hxi, decide_false, Bool.false_eq_true, if_false]
      symm
      apply List.filter_eq_nil_iff.2
      intro y hy
      have := hx.1 y hy
      simp; omega

end Verif.Selection
