import Verif.Selection.RangeLemmas
/-
Properties C14 – C19.  `Sel.mem`, `Sel.WF` and `pick` are the specification (Spec.lean).
`same` models the pointer comparison `&x == &y` of the code: when it is true both arguments are the same object.
-/
namespace Verif.Selection

variable {α : Type}

/-- C14 (union). -/
theorem C14_union (same : Bool) (x y : Sel) (hs : same = true → x = y) (hx : x.WF) (hy : y.WF) :
    ∃ r, union same x y = some r ∧ r.WF ∧ ∀ i, r.mem i = (x.mem i || y.mem i) := by
  cases same with
  | true => cases hs rfl; exact ⟨x, rfl, hx, by simp⟩
  | false =>
    obtain ⟨h1, h2⟩ := operation_spec or (by decide) x.bounds y.bounds x.start y.start hx hy
    exact ⟨_, pushAll_ok _ _ h1 (by simp), by simpa [Sel.WF, unionI] using h1, fun i => h2 i⟩

/-- C14 (intersection). -/
theorem C14_intersection (same : Bool) (x y : Sel) (hs : same = true → x = y) (hx : x.WF) (hy : y.WF) :
    ∃ r, inter same x y = some r ∧ r.WF ∧ ∀ i, r.mem i = (x.mem i && y.mem i) := by
  cases same with
  | true => cases hs rfl; exact ⟨x, rfl, hx, by simp⟩
  | false =>
    obtain ⟨h1, h2⟩ := operation_spec and (by decide) x.bounds y.bounds x.start y.start hx hy
    exact ⟨_, pushAll_ok _ _ h1 (by simp), by simpa [Sel.WF, interI] using h1, fun i => h2 i⟩

/-- C14 (symmetric difference). -/
theorem C14_symmetric_difference (same : Bool) (x y : Sel) (hs : same = true → x = y) (hx : x.WF) (hy : y.WF) :
    ∃ r, sym same x y = some r ∧ r.WF ∧ ∀ i, r.mem i = (x.mem i != y.mem i) := by
  cases same with
  | true =>
    cases hs rfl
    refine ⟨⟨false, []⟩, rfl, List.Pairwise.nil, fun i => ?_⟩
    simp [Sel.mem, toggled_nil]
  | false =>
    obtain ⟨h1, h2⟩ := operation_spec bne (by decide) x.bounds y.bounds x.start y.start hx hy
    exact ⟨_, pushAll_ok _ _ h1 (by simp), by simpa [Sel.WF, symI] using h1, fun i => h2 i⟩

/-- C14 (inversion): `invert` complements the selection. -/
theorem C14_invert (x : Sel) (i : Nat) : x.invert.mem i = !x.mem i := toggled_not _ _ _

/-- C14 (general operation): the iterator-level `selection_operation` is pointwise for every *symmetric* predicate. -/
theorem C14_operation (pred : Bool → Bool → Bool) (hsym : ∀ a b, pred a b = pred b a) (x y : Sel)
    (hx : x.WF) (hy : y.WF) :
    ∃ r : Sel, r = ⟨pred x.start y.start, operation x.bounds y.bounds x.start y.start pred⟩ ∧ r.WF ∧
      ∀ i, r.mem i = pred (x.mem i) (y.mem i) := by
  obtain ⟨h1, h2⟩ := operation_spec pred hsym x.bounds y.bounds x.start y.start hx hy
  exact ⟨_, rfl, h1, h2⟩

/-- … but not for an asymmetric one (`x and not y`): once the first sequence is exhausted the code calls the
    predicate with its arguments exchanged. -/
theorem C14_asymmetric_operation_violated :
    ∃ x y : Sel, ∃ i, x.WF ∧ y.WF ∧
      toggled false (operation x.bounds y.bounds x.start y.start (fun a b => a && !b)) i ≠ (x.mem i && !y.mem i) :=
  ⟨⟨false, []⟩, ⟨false, [2, 4]⟩, 3, by simp [Sel.WF], by simp [Sel.WF], by decide⟩

/-- C15 (partial): `selection_difference` is pointwise `x and not y` unless `x` starts unselected and `y` starts
    selected.  Missing: that remaining polarity combination, where the code is wrong (next theorem). -/
theorem C15_difference_partial (same : Bool) (x y : Sel) (hs : same = true → x = y) (hx : x.WF) (hy : y.WF)
    (hpol : ¬ (x.start = false ∧ y.start = true)) :
    ∃ r, diff same x y = some r ∧ r.WF ∧ ∀ i, r.mem i = (x.mem i && !y.mem i) := by
  cases same with
  | true =>
    cases hs rfl
    refine ⟨⟨false, []⟩, rfl, List.Pairwise.nil, fun i => ?_⟩
    simp [Sel.mem, toggled_nil]
  | false =>
    obtain ⟨h1, h2⟩ := operation_spec and (by decide) x.bounds y.bounds x.start (!y.start) hx hy
    refine ⟨_, pushAll_ok _ _ h1 (by simp), by simpa [Sel.WF, diffI, interI] using h1, fun i => ?_⟩
    have := h2 i
    have e : (x.start != y.start) = (x.start && !y.start) := by
      cases h3 : x.start <;> cases h4 : y.start <;> simp_all
    simp only [Sel.mem, List.nil_append]
    rw [e, show diffI x.bounds y.bounds x.start y.start = operation x.bounds y.bounds x.start (!y.start) and by rfl,
      this, toggled_not]

/-- C15 (the iterator version is right for every polarity): the computed boundaries denote `x and not y` when read
    with the starting polarity `start(x) && !start(y)`. -/
theorem C15_difference_iterators (x y : Sel) (hx : x.WF) (hy : y.WF) :
    ∀ i, toggled (x.start && !y.start) (diffI x.bounds y.bounds x.start y.start) i = (x.mem i && !y.mem i) := by
  intro i
  unfold Sel.mem
  rw [← toggled_not]
  exact (operation_spec and (by decide) x.bounds y.bounds x.start (!y.start) hx hy).2 i

/-- C15 is violated in the missing case: subtracting the full selection from the empty one selects everything. -/
theorem C15_difference_violated :
    ∃ x y r : Sel, x.WF ∧ y.WF ∧ diff false x y = some r ∧ ∃ i, r.mem i ≠ (x.mem i && !y.mem i) :=
  ⟨⟨false, []⟩, ⟨true, []⟩, ⟨true, []⟩, by simp [Sel.WF], by simp [Sel.WF], by decide, 0, by decide⟩

/-- In fact in that polarity case *every* index is reported wrongly. -/
theorem C15_difference_all_wrong_violated (x y : Sel) (hx : x.WF) (hy : y.WF)
    (hpol : x.start = false ∧ y.start = true) :
    ∃ r, diff false x y = some r ∧ ∀ i, r.mem i = !(x.mem i && !y.mem i) := by
  obtain ⟨h1, h2⟩ := operation_spec and (by decide) x.bounds y.bounds x.start (!y.start) hx hy
  refine ⟨_, pushAll_ok _ _ h1 (by simp), fun i => ?_⟩
  have := h2 i
  simp only [Sel.mem, List.nil_append]
  rw [hpol.1, hpol.2] at *
  simp only [Bool.not_true, Bool.and_false] at this
  rw [show (false != true) = !false by rfl, toggled_not]
  rw [show diffI x.bounds y.bounds false true = operation x.bounds y.bounds false false and by rfl, this]
  rw [← toggled_not]; rfl

/-- C16 (partial): for bounded selections (start unselected, even number of boundaries) inclusion is always reported
    when it holds, and any answer given is right.  Missing: unbounded selections and other polarities, and inputs on
    which the code reads past the end of its temporary (see the violations below). -/
theorem C16_includes_partial (x y : Sel) (hx : x.WF) (hy : y.WF) (h1 : x.start = false) (h2 : y.start = false)
    (h3 : x.bounds.length % 2 = 0) (h4 : y.bounds.length % 2 = 0) :
    ((∀ i, y.mem i = true → x.mem i = true) → includes false x y = some true) ∧
    (∀ b, includes false x y = some b → (b = true ↔ ∀ i, y.mem i = true → x.mem i = true)) := by
  obtain ⟨o1, o2⟩ := operation_spec and (by decide) x.bounds y.bounds false false hx hy
  have hinc : includes false x y = equalWalk y.bounds (interI x.bounds y.bounds false false) := by
    simp [includes, includesI, h1, h2]
  have hx' : ∀ i, x.mem i = toggled false x.bounds i := fun i => by rw [Sel.mem, h1]
  have hy' : ∀ i, y.mem i = toggled false y.bounds i := fun i => by rw [Sel.mem, h2]
  have hA : (∀ i, y.mem i = true → x.mem i = true) → interI x.bounds y.bounds false false = y.bounds := by
    intro hsub
    apply bounds_unique false _ _ o1 hy
    intro i
    have := o2 i
    simp only [Bool.and_false] at this
    rw [this]
    have h5 := hsub i
    rw [hx', hy'] at h5
    cases h6 : toggled false y.bounds i
    · simp
    · simp [h5 h6]
  refine ⟨fun hsub => ?_, ?_⟩
  · rw [hinc, hA hsub, equalWalk_same_len _ _ rfl]; simp
  · intro b hb
    rw [hinc] at hb
    constructor
    · intro hbt i hi
      rw [hbt] at hb
      obtain ⟨t, ht⟩ := equalWalk_true hb
      -- beyond the last boundary of y nothing of y is selected, so `t` adds nothing
      have key := o2 i
      simp only [Bool.and_false] at key
      rw [show operation x.bounds y.bounds false false and = interI x.bounds y.bounds false false by rfl, ht,
        toggled_append] at key
      rw [hy'] at hi
      rw [hi] at key
      rw [hx']
      -- if some boundary of t is ≤ i then all boundaries of y are ≤ i and y.mem i = false
      by_cases htl : ∃ z ∈ t, z ≤ i
      · obtain ⟨z, hz, hzi⟩ := htl
        have hs2 : Sorted (y.bounds ++ t) := by rw [← ht]; exact o1
        have := toggled_all_le false y.bounds i (fun w hw => by
          have := (List.pairwise_append.1 hs2).2.2 w hw z hz; omega)
        rw [hi] at this
        simp [h4] at this
      · rw [toggled_gt _ t _ (fun z hz => Nat.lt_of_not_le (fun h => htl ⟨z, hz, h⟩))] at key
        simpa using key.symm
    · intro hsub
      have := hA hsub
      rw [this, equalWalk_same_len _ _ rfl] at hb
      simpa using hb.symm

theorem toggled_tail (b : Nat) (t : List Nat) (i : Nat) (h : b ≤ i) : toggled true (b :: t) i = toggled false t i := by
  unfold toggled
  rw [List.filter_cons_of_pos (by simpa using h), List.length_cons]
  generalize (List.filter (fun b => decide (b ≤ i)) t).length = n
  rcases Nat.mod_two_eq_zero_or_one n with h | h
  · have : (n + 1) % 2 = 1 := by omega
    simp [h, this]
  · have : (n + 1) % 2 = 0 := by omega
    simp [h, this]

theorem toggled_below (t : List Nat) (i : Nat) (h : ∀ c ∈ t, i < c) : toggled false t i = false := by
  unfold toggled
  rw [List.filter_eq_nil_iff.2 (by intro c hc; have := h c hc; simp; omega)]
  rfl

/-- C16 (partial), `y` starting selected: the region below the first boundary of `y` is ignored, the rest is decided
    correctly (for bounded rest).  So the answer is right exactly when that region is empty. -/
theorem C16_includes_y_open_partial (x : Sel) (b : Nat) (t : List Nat) (hx : x.WF) (hy : (b :: t).Pairwise (· < ·))
    (h1 : x.start = false) (h3 : x.bounds.length % 2 = 0) (h4 : t.length % 2 = 0) :
    ((∀ i, b ≤ i → (Sel.mk true (b :: t)).mem i = true → x.mem i = true) → includes false x ⟨true, b :: t⟩ = some true) ∧
    (∀ r, includes false x ⟨true, b :: t⟩ = some r →
      (r = true ↔ ∀ i, b ≤ i → (Sel.mk true (b :: t)).mem i = true → x.mem i = true)) := by
  have e : includes false x ⟨true, b :: t⟩ = includes false x ⟨false, t⟩ := by
    simp [includes, includesI, h1]
  rw [List.pairwise_cons] at hy
  have key : (∀ i, (Sel.mk false t).mem i = true → x.mem i = true) ↔
      (∀ i, b ≤ i → (Sel.mk true (b :: t)).mem i = true → x.mem i = true) := by
    constructor
    · intro h i hi hm
      simp only [Sel.mem] at hm
      rw [toggled_tail b t i hi] at hm
      exact h i hm
    · intro h i hm
      by_cases hi : b ≤ i
      · apply h i hi
        simp only [Sel.mem]
        rw [toggled_tail b t i hi]; exact hm
      · have := toggled_below t i (fun c hc => by have := hy.1 c hc; omega)
        simp only [Sel.mem] at hm
        rw [this] at hm; cases hm
  have := C16_includes_partial x ⟨false, t⟩ hx hy.2 h1 rfl h3 h4
  rw [e, ← key]; exact this

/-- C16 (partial), `x` starting selected: inclusion is tested against `x` without the region below its first boundary, so
    an affirmative answer is right, and the answer is exact when `y` selects nothing there. -/
theorem C16_includes_x_open_partial (y : Sel) (b : Nat) (t : List Nat) (hy : y.WF) (hx : (b :: t).Pairwise (· < ·))
    (h1 : y.start = false) (h3 : y.bounds.length % 2 = 0) (h4 : t.length % 2 = 0) :
    ((∀ i, y.mem i = true → b ≤ i ∧ (Sel.mk true (b :: t)).mem i = true) → includes false ⟨true, b :: t⟩ y = some true) ∧
    (∀ r, includes false ⟨true, b :: t⟩ y = some r →
      (r = true ↔ ∀ i, y.mem i = true → b ≤ i ∧ (Sel.mk true (b :: t)).mem i = true)) := by
  have e : includes false ⟨true, b :: t⟩ y = includes false ⟨false, t⟩ y := by
    simp [includes, includesI, h1]
  rw [List.pairwise_cons] at hx
  have key : (∀ i, y.mem i = true → (Sel.mk false t).mem i = true) ↔
      (∀ i, y.mem i = true → b ≤ i ∧ (Sel.mk true (b :: t)).mem i = true) := by
    constructor
    · intro h i hm
      have hm' := h i hm
      by_cases hi : b ≤ i
      · refine ⟨hi, ?_⟩
        simp only [Sel.mem]
        rw [toggled_tail b t i hi]; exact hm'
      · have := toggled_below t i (fun c hc => by have := hx.1 c hc; omega)
        simp only [Sel.mem] at hm'
        rw [this] at hm'; cases hm'
    · intro h i hm
      obtain ⟨hi, hm'⟩ := h i hm
      simp only [Sel.mem] at hm'
      rw [toggled_tail b t i hi] at hm'
      exact hm'
  have := C16_includes_partial ⟨false, t⟩ y hx.2 hy rfl h1 h4 h3
  rw [e, ← key]; exact this

/-- C16 is violated when `y` starts selected and `x` does not: `[0,3) ∪ [5,8)` is reported included in `[5,8)`. -/
theorem C16_includes_y_open_violated :
    ∃ x y : Sel, x.WF ∧ y.WF ∧ includes false x y = some true ∧ y.mem 0 = true ∧ x.mem 0 = false :=
  ⟨⟨false, [5, 8]⟩, ⟨true, [3, 5, 8]⟩, by simp [Sel.WF], by simp [Sel.WF], by
    simp [includes, includesI, interI, operation, opLoop, equalWalk], by decide, by decide⟩

/-- C16 is violated for unbounded selections: `[5, ∞)` is reported to be included in `[0, 10)`. -/
theorem C16_includes_unbounded_violated :
    ∃ x y : Sel, x.WF ∧ y.WF ∧ includes false x y = some true ∧ y.mem 20 = true ∧ x.mem 20 = false :=
  ⟨⟨false, [0, 10]⟩, ⟨false, [5]⟩, by simp [Sel.WF], by simp [Sel.WF], by
    simp [includes, includesI, interI, operation, opLoop, remainder, remainderLoop, equalWalk], by decide, by decide⟩

/-- C16 is violated: bounded inputs on which the answer depends on memory past the end of a vector. -/
theorem C16_includes_oob_violated :
    ∃ x y : Sel, x.WF ∧ y.WF ∧ includes false x y = none :=
  ⟨⟨false, [1, 2]⟩, ⟨false, [1, 2, 5, 6]⟩, by simp [Sel.WF], by simp [Sel.WF], by
    simp [includes, includesI, interI, operation, opLoop, remainder, remainderLoop, equalWalk]⟩

/-- C16 is violated for differing polarity: the code steps over a boundary that may not exist. -/
theorem C16_includes_polarity_violated :
    includes false ⟨true, []⟩ ⟨false, [1, 2]⟩ = none := by decide

/-- C17 (`is_selected`): agrees with toggling, for every well-formed selection and index. -/
theorem C17_is_selected (x : Sel) (hx : x.WF) (i : Nat) : isSelected x i = x.mem i := by
  unfold isSelected Sel.mem toggled
  rw [takeWhile_le_filter _ hx]
  cases x.start <;> simp

/-- C17 (`index_set_to_selection`): for every strictly increasing index set the conversion succeeds, yields a
    well-formed selection and selects exactly the given indices. -/
theorem C17_from_index_set (l : List Nat) (hl : l.Pairwise (· < ·)) :
    ∃ s, indexSetToSelection l = some s ∧ s.WF ∧ ∀ i, s.mem i = true ↔ i ∈ l := by
  obtain ⟨h1, _, h3, _⟩ := indexSetBounds_spec l hl
  refine ⟨_, pushAll_ok _ _ h1 (by simp), by simpa [Sel.WF] using h1, fun i => ?_⟩
  have := h3 i
  simp only [Sel.mem, List.nil_append]
  rw [this]; simp

/-- C17 (`selection_to_index_set`): lists exactly the selected indices below `n`, in increasing order. -/
theorem C17_to_index_set (s : Sel) (hs : s.WF) (n : Nat) :
    toIndexSet s n = (List.range n).filter s.mem := by
  unfold toIndexSet
  rw [toIndexLoop_spec n s.bounds s.start 0 hs (by simp) (by simp), List.range_eq_range']
  rfl

/-- C17 (inverse, one way). -/
theorem C17_roundtrip_index_set (l : List Nat) (hl : l.Pairwise (· < ·)) (n : Nat) (hn : ∀ i ∈ l, i < n) :
    ∃ s, indexSetToSelection l = some s ∧ toIndexSet s n = l := by
  obtain ⟨s, h1, h2, h3⟩ := C17_from_index_set l hl
  refine ⟨s, h1, ?_⟩
  rw [C17_to_index_set s h2]
  have hmem : ∀ i, i ∈ (List.range n).filter s.mem ↔ i ∈ l := by
    intro i
    rw [List.mem_filter, List.mem_range, h3]
    exact ⟨fun h => h.2, fun h => ⟨hn i h, h⟩⟩
  have hsrt : ((List.range n).filter s.mem).Pairwise (· < ·) :=
    List.Pairwise.sublist List.filter_sublist (List.pairwise_lt_range)
  exact List.Perm.eq_of_pairwise (le := (· < ·)) (fun a b _ _ h1 h2 => by omega) hsrt hl
    ((List.perm_ext_iff_of_nodup (hsrt.imp (fun h => Nat.ne_of_lt h)) (hl.imp (fun h => Nat.ne_of_lt h))).2 hmem)

/-- C17 (inverse, other way): converting a selection to indices below `n` and back selects the same indices below
    `n` and nothing else. -/
theorem C17_roundtrip_selection (s : Sel) (hs : s.WF) (n : Nat) :
    ∃ t, indexSetToSelection (toIndexSet s n) = some t ∧ ∀ i, t.mem i = (decide (i < n) && s.mem i) := by
  rw [C17_to_index_set s hs]
  obtain ⟨t, h1, _, h3⟩ := C17_from_index_set ((List.range n).filter s.mem)
    (List.Pairwise.sublist List.filter_sublist (List.pairwise_lt_range))
  refine ⟨t, h1, fun i => ?_⟩
  rw [Bool.eq_iff_iff, h3]
  simp

/-- C18 (`selection_copy`, `selection_foreach`): exactly the selected elements, in order, for every range that the
    selection's boundaries fit. -/
theorem C18_copy_foreach (s : Sel) (hs : s.WF) (l : List α) (hfit : ∀ b ∈ s.bounds, b ≤ l.length) :
    copy s l = some (pick s.mem 0 l) ∧ foreach s l = some (pick s.mem 0 l) := by
  have h := copyLoop_spec l.length l 0 s.bounds s.start hs (by simp) hfit
  refine ⟨?_, h⟩
  unfold copy
  split
  · rename_i h0
    have : l = [] := List.length_eq_zero_iff.1 h0
    subst this; simp [pick]
  · exact h

/-- C18 (`size(selection, range)`): the number of selected elements. -/
theorem C18_size (s : Sel) (hs : s.WF) (l : List α) (hfit : ∀ b ∈ s.bounds, b ≤ l.length) :
    sizeIn s l = some (pick s.mem 0 l).length := by
  rw [pick_length]
  unfold sizeIn Sel.empty Sel.size
  cases hb : s.bounds with
  | nil =>
    cases hst : s.start with
    | false =>
      simp only [List.isEmpty_nil, beq_self_eq_true, Bool.and_self, if_true]
      rw [filter_const _ false]
      · simp
      · intro k _; rw [Sel.mem, hb, hst, toggled_nil]
    | true =>
      simp only [List.isEmpty_nil, List.length_nil, if_true]
      rw [filter_const _ true]
      · simp
      · intro k _; rw [Sel.mem, hb, hst, toggled_nil]
  | cons b bs =>
    rw [hb] at hfit
    have := sizeLoop_spec l.length (b :: bs) 0 b s.start 0 (by rw [← hb]; exact hs) hfit (by simp) (by simp) rfl
    simp only [List.isEmpty_cons, Bool.false_and, Bool.false_eq_true, if_false, List.length_cons,
      Nat.add_one_ne_zero]
    rw [this]
    simp only [Nat.sub_zero, Nat.zero_add]
    have e : s.mem = toggled s.start (b :: bs) := by funext k; rw [Sel.mem, hb]
    rw [e]

/-- C18 (`selection_partition_copy`, partial): with back_inserter-like outputs the unselected elements go to the first
    and the selected to the second output, in order.  Missing: ordinary output iterators (violation below). -/
theorem C18_partition_copy_partial (s : Sel) (hs : s.WF) (l : List α) (hfit : ∀ b ∈ s.bounds, b ≤ l.length) :
    partitionCopy .append s l = some (pick (fun i => !s.mem i) 0 l, pick s.mem 0 l) := by
  unfold partitionCopy
  split
  · rename_i h0
    have : l = [] := List.length_eq_zero_iff.1 h0
    subst this; simp [pick]
  · have := partLoop_spec l s.bounds 0 s.start [] [] hs hfit (by simp) (by simp)
    rw [this]; simp only [List.nil_append, List.drop_zero]; rfl

/-- C18 is violated for ordinary output iterators: `std::copy`'s result is dropped, so a later run overwrites an
    earlier one. -/
theorem C18_partition_copy_violated :
    ∃ (s : Sel) (l : List Nat), s.WF ∧ (∀ b ∈ s.bounds, b ≤ l.length) ∧
      partitionCopy .raw s l = some ([12, 13], [11]) ∧ pick (fun i => !s.mem i) 0 l = [10, 12, 13] :=
  ⟨⟨false, [1, 2]⟩, [10, 11, 12, 13], by simp [Sel.WF], by simp, by
    simp [partitionCopy, partLoop, writeSeg], by decide⟩

/-- C18 (`selection_stable_partition`): unselected elements first, selected elements last, both in their original
    order; the result is the boundary. -/
theorem C18_stable_partition (s : Sel) (hs : s.WF) (l : List α) (hfit : ∀ b ∈ s.bounds, b ≤ l.length) :
    stablePartition s l =
      some (pick (fun i => !s.mem i) 0 l ++ pick s.mem 0 l, (pick (fun i => !s.mem i) 0 l).length) := by
  have := stablePartitionI_spec [] l [] s.bounds (if s.start then 1 else 0) hs (by simp) (by simpa using hfit)
  simp only [List.nil_append, List.append_nil, List.length_nil, Nat.zero_add] at this
  unfold stablePartition
  rw [this]
  have e : ∀ k, toggled (decide ((if s.start = true then 1 else 0) % 2 = 1)) s.bounds k = s.mem k := by
    intro k; unfold Sel.mem; cases s.start <;> rfl
  rw [pick_congr _ s.mem 0 l (fun k _ _ => e k), pick_congr _ (fun i => !s.mem i) 0 l (fun k _ _ => by rw [e k])]

/-- C18 (`selection_stable_partition_about`, partial): for a selection that starts unselected, all selected elements are
    gathered around position `p`, stably, and the returned pair delimits them.
    Missing: selections that start selected (violation below). -/
theorem C18_stable_partition_about_partial (s : Sel) (hs : s.WF) (hst : s.start = false) (A B : List α)
    (hfit : ∀ b ∈ s.bounds, b ≤ A.length + B.length) :
    let nsel := fun i => !s.mem i
    stablePartitionAbout s (A ++ B) A.length 0 =
      some (pick nsel 0 A ++ (pick s.mem 0 A ++ pick s.mem A.length B) ++ pick nsel A.length B,
        (pick nsel 0 A).length, A.length + (pick s.mem A.length B).length) := by
  intro nsel
  unfold stablePartitionAbout
  have hk : findBoundary s A.length = (s.bounds.takeWhile (fun b => decide (b < A.length))).length := by
    unfold findBoundary Sel.size
    split
    · rename_i h; rw [List.length_eq_zero_iff.1 h]; rfl
    · rfl
  simp only [hk]
  rw [if_neg (by simp)]
  have htake : s.bounds.take (s.bounds.takeWhile (fun b => decide (b < A.length))).length =
      s.bounds.takeWhile (fun b => decide (b < A.length)) := by
    exact List.prefix_iff_eq_take.1 (List.takeWhile_prefix _) |>.symm
  have hdrop : s.bounds.drop (s.bounds.takeWhile (fun b => decide (b < A.length))).length =
      s.bounds.dropWhile (fun b => decide (b < A.length)) := by
    have h1 := List.takeWhile_append_dropWhile (p := fun b => decide (b < A.length)) (l := s.bounds)
    have h2 := List.take_append_drop (s.bounds.takeWhile (fun b => decide (b < A.length))).length s.bounds
    rw [htake] at h2
    exact List.append_cancel_left (h2.trans h1.symm)
  rw [htake, hdrop]
  have hsplit := List.takeWhile_append_dropWhile (p := fun b => decide (b < A.length)) (l := s.bounds)
  have hL : ∀ z ∈ s.bounds.takeWhile (fun b => decide (b < A.length)), z < A.length := by
    intro z hz; have := List.all_takeWhile (p := fun b => decide (b < A.length)) (l := s.bounds)
    have := List.all_eq_true.1 this z hz; simpa using this
  have hsub2 : ∀ z ∈ s.bounds.dropWhile (fun b => decide (b < A.length)), z ∈ s.bounds :=
    fun z hz => (List.dropWhile_sublist _).subset hz
  have hpw := hs
  unfold Sel.WF at hpw
  rw [← hsplit] at hpw
  have hR : ∀ z ∈ s.bounds.dropWhile (fun b => decide (b < A.length)), A.length ≤ z := by
    intro z hz
    cases hd : s.bounds.dropWhile (fun b => decide (b < A.length)) with
    | nil => rw [hd] at hz; simp at hz
    | cons w ws =>
      have hw := List.head?_dropWhile_not (fun b => decide (b < A.length)) s.bounds
      rw [hd] at hw
      simp at hw
      rw [hd] at hz hpw
      rcases List.mem_cons.1 hz with h | h
      · omega
      · have := (List.pairwise_cons.1 (List.pairwise_append.1 hpw).2.1).1 z h
        omega
  generalize hTL : s.bounds.takeWhile (fun b => decide (b < A.length)) = TL at *
  generalize hTR : s.bounds.dropWhile (fun b => decide (b < A.length)) = TR at *
  have hmemL : ∀ k, k < A.length → toggled false TL k = s.mem k := by
    intro k hk'
    unfold Sel.mem; rw [hst, ← hsplit, toggled_append]
    exact (toggled_gt _ _ _ (fun z hz => by have := hR z hz; omega)).symm
  have hmemR : ∀ k, A.length ≤ k → toggled (decide ((TL.length + 1) % 2 = 1)) TR k = !s.mem k := by
    intro k hk'
    unfold Sel.mem
    rw [hst, ← hsplit, toggled_append, toggled_all_le _ TL k (fun z hz => by have := hL z hz; omega), ← toggled_not]
    congr 1
    rw [odd_add]
    cases decide (TL.length % 2 = 1) <;> rfl
  have i1 := stablePartitionI_spec [] A B TL 0 (List.pairwise_append.1 hpw).1 (by simp)
    (fun b hb => by have := hL b hb; simp; omega)
  simp only [List.nil_append, List.length_nil, Nat.zero_add] at i1
  rw [i1]
  simp only
  have eU : pick (fun k => !toggled (decide (0 % 2 = 1)) TL k) 0 A = pick nsel 0 A :=
    pick_congr _ _ _ _ (fun k _ h2 => by
      show (!toggled false TL k) = !s.mem k
      rw [hmemL k (by omega)])
  have eS : pick (toggled (decide (0 % 2 = 1)) TL) 0 A = pick s.mem 0 A :=
    pick_congr _ _ _ _ (fun k _ h2 => hmemL k (by omega))
  rw [eU, eS]
  have hlen : (pick nsel 0 A ++ pick s.mem 0 A).length = A.length := by
    rw [List.length_append]; exact pick_split_len _ _ _
  have i2 := stablePartitionI_spec (pick nsel 0 A ++ pick s.mem 0 A) B [] TR (TL.length + 1)
    (List.pairwise_append.1 hpw).2.1 (fun b hb => by rw [hlen]; exact hR b hb)
    (fun b hb => by rw [hlen]; exact hfit b (hsub2 b hb))
  rw [hlen, List.append_nil, List.append_nil] at i2
  rw [show (A ++ B).length = A.length + B.length by simp, i2]
  have eU2 : pick (fun k => !toggled (decide ((TL.length + 1) % 2 = 1)) TR k) A.length B = pick s.mem A.length B :=
    pick_congr _ _ _ _ (fun k h1 _ => by
      show (!toggled _ TR k) = s.mem k
      rw [hmemR k h1]; simp)
  have eS2 : pick (toggled (decide ((TL.length + 1) % 2 = 1)) TR) A.length B = pick nsel A.length B :=
    pick_congr _ _ _ _ (fun k h1 _ => hmemR k h1)
  rw [eU2, eS2]
  simp

/-- C18 is violated by `selection_stable_partition_about` for selections that start selected, whether the caller passes
    the polarity as `prior_boundary_count` or not: the full selection of [0,1,2,3] about 2 is not reported as
    the whole range. -/
theorem C18_stable_partition_about_violated :
    stablePartitionAbout ⟨true, []⟩ [0, 1, 2, 3] 2 1 = some ([0, 1, 2, 3], 0, 2) ∧
    stablePartitionAbout ⟨true, []⟩ [0, 1, 2, 3] 2 0 = some ([0, 1, 2, 3], 2, 2) := by
  simp [stablePartitionAbout, stablePartitionI, findBoundary, Sel.size]

/-- C19 (partial): selections with the same starting polarity compare equal iff they select the same indices.
    Missing: differing polarity, which the code ignores (next theorem). -/
theorem C19_eq_partial (x y : Sel) (hx : x.WF) (hy : y.WF) (h : x.start = y.start) :
    ∃ b, x.eq y = some b ∧ (b = true ↔ ∀ i, x.mem i = y.mem i) := by
  unfold Sel.eq Sel.size
  split
  · rename_i hl
    refine ⟨_, equalWalk_same_len _ _ hl, ?_⟩
    rw [decide_eq_true_eq]
    constructor
    · intro he i; unfold Sel.mem; rw [he, h]
    · intro hm; exact bounds_unique x.start _ _ hx hy (fun i => by have := hm i; unfold Sel.mem at this; rwa [← h] at this)
  · rename_i hl
    refine ⟨false, rfl, ?_⟩
    simp only [Bool.false_eq_true, false_iff]
    intro hm
    apply hl
    rw [bounds_unique x.start _ _ hx hy (fun i => by have := hm i; unfold Sel.mem at this; rwa [← h] at this)]

/-- C19 is violated: a selection compares equal to its own inversion although they differ at every index. -/
theorem C19_eq_violated (x : Sel) : x.eq x.invert = some true ∧ ∀ i, x.mem i ≠ x.invert.mem i := by
  constructor
  · unfold Sel.eq Sel.invert Sel.size
    simp only [if_true]
    rw [equalWalk_same_len _ _ rfl]; simp
  · intro i; rw [C14_invert]; simp

/-! ### non-vacuity -/
example : (Sel.mk true [2, 5, 9]).WF ∧ (Sel.mk false [3, 5]).WF := by simp [Sel.WF]
example : (union false ⟨false, [1, 4]⟩ ⟨false, [4, 8]⟩) = some ⟨false, [1, 8]⟩ := by
  simp [union, unionI, operation, opLoop, remainder, remainderLoop, Sel.pushAll, Sel.push]
example : indexSetToSelection [0, 1, 2, 3, 7, 9, 10, 12] = some ⟨false, [0, 4, 7, 8, 9, 11, 12, 13]⟩ := by
  simp [indexSetToSelection, indexSetBounds, findSequenceEnd, Sel.pushAll, Sel.push]
example : ∀ b ∈ (Sel.mk false [1, 2]).bounds, b ≤ [10, 11, 12, 13].length := by simp

end Verif.Selection
