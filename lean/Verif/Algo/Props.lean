import Verif.Algo.Lemmas2

/-
C80-C83: the algorithms of adobe/algorithm that have their own loops.
-/
namespace Verif.Algo

variable {α β : Type}

section
variable [BEq α] [LawfulBEq α]

/-! ### C80 `reduce_balanced` -/

/-- C80: for every associative operation with identity `z`, and every sequence (also one whose
    partial results become `z`), `reduce_balanced` returns the in order reduction of the
    sequence; `op` need not be commutative. -/
theorem C80_reduce_balanced_is_the_ordered_fold {op : α → α → α} {z : α} (h : IsMonoid op z)
    (xs : List α) : (reduceBalanced op z xs).1 = xs.foldl op z :=
  reduceBalanced_fold h xs

/-- C80: `reduce_nonzeros` is the in order reduction for every operation with identity `z`. -/
theorem C80_reduce_nonzeros_is_the_ordered_fold {op : α → α → α} {z : α}
    (hl : ∀ a, op z a = a) (hr : ∀ a, op a z = a) (xs : List α) :
    (reduceNonzeros op z xs).1 = xs.foldl op z :=
  reduceNonzeros_fold hl hr xs

/-- C80: for every operation (associative or not) at most one application less than there are
    elements is made. -/
theorem C80_reduce_balanced_applications {op : α → α → α} {z : α} (xs : List α) :
    (reduceBalanced op z xs).2.length ≤ xs.length - 1 :=
  reduceBalanced_calls op z xs

/-- C80 (balanced): whatever the operation, a result other than `z` is the value of an expression
    whose operands are elements of the sequence in their order and whose nesting depth `d`
    satisfies `2 ^ d < 2 * n`, that is `d ≤ ⌈log2 n⌉`. -/
theorem C80_reduce_balanced_depth (op : α → α → α) (z : α) (xs : List α)
    (h : (reduceBalanced op z xs).1 ≠ z) :
    ∃ t : Tree α, t.eval op = (reduceBalanced op z xs).1 ∧ t.leaves.Sublist xs ∧
      2 ^ t.depth < 2 * xs.length := by
  obtain ⟨ls, h1, -, h2⟩ := reduceBalanced_tree (N := False) (op := op) (z := z) (by simp) xs (by simp)
  rcases h2 with ⟨h2, -⟩ | ⟨t, h3, h4, h5⟩
  · exact absurd h2 h
  · refine ⟨t, h3, by rw [h4]; exact h1, ?_⟩
    have := h1.length_le
    rw [h4] at h5; omega

/-- C80 (balanced): if `z` is no element and no result of `op`, that expression uses every element
    exactly once. -/
theorem C80_reduce_balanced_uses_every_element (op : α → α → α) (z : α) (xs : List α)
    (hop : ∀ a b, a ≠ z → b ≠ z → op a b ≠ z) (hz : z ∉ xs) (hne : xs ≠ []) :
    ∃ t : Tree α, t.eval op = (reduceBalanced op z xs).1 ∧ t.leaves = xs ∧
      2 ^ t.depth < 2 * xs.length := by
  obtain ⟨ls, -, h1, h2⟩ := reduceBalanced_tree (N := True) (op := op) (z := z) (fun _ => hop) xs
    (fun _ x hx e => hz (e ▸ hx))
  have h1 := h1 trivial
  subst h1
  rcases h2 with ⟨-, h2⟩ | ⟨t, h3, h4, h5⟩
  · exact absurd h2 hne
  · exact ⟨t, h3, h4, by rw [h4] at h5; exact h5⟩

end

/-! ### C81 `is_sorted`, `sorted` -/

theorem isSorted_iff_chain (o : α → α → Bool) (xs : List α) :
    isSorted o xs = true ↔ xs.IsChain (fun a b => o a b = true) := by
  unfold isSorted
  simp [adjacentFind_eq_length]

/-- C81: `is_sorted(range)` is right for every strict weak ordering `<`. -/
theorem C81_is_sorted_range {less : α → α → Bool} (h : StrictWeak less) (xs : List α) :
    isSortedRange less xs = true ↔ IsSorted less xs := by
  unfold isSortedRange IsSorted
  rw [beq_iff_eq, adjacentFind_eq_length]
  haveI : IsTrans α (fun a b => less b a = false) :=
    ⟨fun a b c h1 h2 => h.neg_trans c b a h2 h1⟩
  exact List.isChain_iff_pairwise

/-- C81 (violated): with any strict ordering `is_sorted(f, l, o)` reports a sorted sequence that
    has two equal neighbours as not sorted; `is_sorted(range)` accepts the same sequence. -/
theorem C81_is_sorted_rejects_equal_neighbours_violated {less : α → α → Bool}
    (h : StrictWeak less) (xs ys : List α) (a : α) (hs : IsSorted less (xs ++ a :: a :: ys)) :
    isSorted less (xs ++ a :: a :: ys) = false ∧
      isSortedRange less (xs ++ a :: a :: ys) = true := by
  refine ⟨?_, (C81_is_sorted_range h _).mpr hs⟩
  rw [Bool.eq_false_iff]
  intro hc
  rw [isSorted_iff_chain, List.isChain_append] at hc
  have := (List.isChain_cons_cons.mp hc.2.1).1
  rw [h.irrefl] at this
  cases this

/-- C81 (partial): what `is_sorted(f, l, o)` with a strict weak ordering decides: the sequence is
    sorted *and* has no two equivalent elements.  Missing: sorted sequences with equivalent
    elements, see `C81_is_sorted_rejects_equal_neighbours_violated`. -/
theorem C81_is_sorted_strict_partial {less : α → α → Bool} (h : StrictWeak less) (xs : List α) :
    isSorted less xs = true ↔
      IsSorted less xs ∧ xs.Pairwise (fun a b => less a b = true ∨ less b a = true) := by
  rw [isSorted_iff_chain]
  haveI : IsTrans α (fun a b => less a b = true) := ⟨h.trans⟩
  rw [List.isChain_iff_pairwise]
  unfold IsSorted
  rw [← List.pairwise_and_iff]
  constructor
  · intro hp
    refine hp.imp fun {a b} hab => ⟨?_, Or.inl hab⟩
    rw [Bool.eq_false_iff]
    intro hba
    have := h.trans a b a hab hba
    rw [h.irrefl] at this; cases this
  · intro hp
    refine hp.imp fun {a b} hab => ?_
    rcases hab.2 with h1 | h1
    · exact h1
    · rw [hab.1] at h1; cases h1

/-- C81: with a total preorder such as `<=` the answer is right. -/
theorem C81_is_sorted_le (le : α → α → Bool)
    (htrans : ∀ a b c, le a b = true → le b c = true → le a c = true) (xs : List α) :
    isSorted le xs = true ↔ xs.Pairwise (fun a b => le a b = true) := by
  rw [isSorted_iff_chain]
  haveI : IsTrans α (fun a b => le a b = true) := ⟨htrans⟩
  exact List.isChain_iff_pairwise

/-- C81: the projected form is the plain form on the projected sequence. -/
theorem C81_is_sorted_projection (c : β → β → Bool) (p : α → β) (xs : List α) :
    isSortedProj c p xs = isSorted c (xs.map p) := by
  have : ∀ xs : List α, adjacentFind (fun a b => !(c (p a) (p b))) xs =
      adjacentFind (fun a b => !(c a b)) (xs.map p) := by
    intro xs
    induction xs with
    | nil => rfl
    | cons a t ih =>
      cases t with
      | nil => rfl
      | cons b t =>
        simp only [List.map_cons, adjacentFind] at ih ⊢
        rw [ih]
  unfold isSortedProj isSorted
  rw [this, List.length_map]

/-- C81: `sorted(f, l, o)` returns the end of the longest prefix whose neighbours are all in the
    relation `o`; it is `l` iff `is_sorted` is true. -/
theorem C81_sorted_longest_prefix (o : α → α → Bool) (xs : List α) :
    sorted o xs ≤ xs.length ∧
    (xs.take (sorted o xs)).IsChain (fun a b => o a b = true) ∧
    (∀ n, n ≤ xs.length → (xs.take n).IsChain (fun a b => o a b = true) → n ≤ sorted o xs) ∧
    (sorted o xs = xs.length ↔ isSorted o xs = true) := by
  have hs := adjacentFind_spec (fun a b => !(o a b)) xs
  have hle := adjacentFind_le (fun a b => !(o a b)) xs
  simp only [Bool.not_eq_false'] at hs
  unfold sorted isSorted
  by_cases he : adjacentFind (fun a b => !(o a b)) xs = xs.length
  · simp only [he, bne_self_eq_false, Bool.false_eq_true, if_false, beq_self_eq_true, true_iff]
    refine ⟨Nat.le_refl _, ?_, fun n hn _ => hn, trivial⟩
    rw [List.take_length, ← List.take_length (l := xs)]
    have := hs.1
    rw [he, List.take_of_length_le (by omega)] at this
    rw [List.take_length]; exact this
  · have hlt : adjacentFind (fun a b => !(o a b)) xs < xs.length := by omega
    obtain ⟨h1, h2⟩ := hs.2 hlt
    simp only [bne_iff_ne, ne_eq, he, not_false_eq_true, if_true, beq_iff_eq, iff_false]
    refine ⟨by omega, hs.1, ?_, by omega⟩
    intro n hn hc
    by_contra hlt2
    apply h2
    have : xs.take (adjacentFind (fun a b => !(o a b)) xs + 2) =
        (xs.take n).take (adjacentFind (fun a b => !(o a b)) xs + 2) := by
      rw [List.take_take]; congr 1; omega
    rw [this]
    exact hc.take _

/-! ### C82 `erase_if`, `find_range_if` -/

/-- C82: on a node based container `erase_if(x, f, l, p)` removes exactly the elements of `[f, l)`
    that satisfy the predicate and keeps the rest of the container in order. -/
theorem C82_erase_if_node (p : α → Bool) (before range after : List α) :
    (eraseIfNode p before range after).1 = before ++ range.filter (fun x => !p x) ++ after :=
  eraseIfNode_fst p before range after

/-- C82: the same for `vector` and `deque`; the predicate is applied to each element of the range
    exactly once, in order. -/
theorem C82_erase_if_block (p : α → Bool) (before range after : List α) :
    eraseIfBlock p (before ++ range ++ after) before.length (before.length + range.length) =
      (before ++ range.filter (fun x => !p x) ++ after, range) := by
  rw [eraseIfBlock_spec p _ (by omega) (by simp)]
  simp

/-- C82 (partial): the documented "exactly last - first applications of pred" for node based
    containers, weakened to a bound.  Missing: equality, see
    `C82_erase_if_node_applications_violated`. -/
theorem C82_erase_if_node_applications_partial (p : α → Bool) (before range after : List α) :
    (eraseIfNode p before range after).2.length ≤ 2 * range.length - 1 :=
  eraseIfNode_calls_le p before range after

/-- C82 (violated): on a node based container the predicate is applied again to the element that
    ended a run: for an element that satisfies it followed by one that does not, three
    applications for two elements, whatever surrounds the range. -/
theorem C82_erase_if_node_applications_violated (p : α → Bool) (a b : α) (before after : List α)
    (ha : p a = true) (hb : p b = false) :
    (eraseIfNode p before [a, b] after).2 = [a, b, b] := by
  have h1 : eraseIfNode p before [a, b] after =
      ((eraseIfNode p before [b] after).1, [a, b] ++ (eraseIfNode p before [b] after).2) := by
    rw [eraseIfNode]
    simp [findRangeIf, findIf, findIfNot, ha, hb]
  have h2 : (eraseIfNode p before [b] after).2 = [b] := by
    have h3 : (eraseIfNode p (before ++ [b]) [] after).2 = [] := by rw [eraseIfNode]; simp
    rw [eraseIfNode]
    simp [findRangeIf, findIf, hb, h3]
  rw [h1, h2]; rfl

/-- C82: `find_range_if` returns the first maximal run of elements satisfying the predicate, the
    empty range at the end if there is none. -/
theorem C82_find_range_if (p : α → Bool) (xs : List α) :
    ∃ i j tr, findRangeIf p xs = (i, j, tr) ∧ i ≤ j ∧ j ≤ xs.length ∧
      (∀ x ∈ xs.take i, p x = false) ∧ (∀ x ∈ (xs.drop i).take (j - i), p x = true) ∧
      (∀ x, xs[j]? = some x → p x = false) ∧ (i = j → i = xs.length) := by
  obtain ⟨h1, h2, h3, h4, h5, h6⟩ := findRangeIf_spec p xs
  exact ⟨_, _, _, rfl, h1, h2, h3, h4, h5, h6⟩

/-- C82: `find_range(f, l, x)` is `find_range_if` with equality to `x`. -/
theorem C82_find_range [BEq α] [LawfulBEq α] (x : α) (xs : List α) :
    ∃ i j, findRange x xs = (i, j) ∧ i ≤ j ∧ j ≤ xs.length ∧ x ∉ xs.take i ∧
      (∀ y ∈ (xs.drop i).take (j - i), y = x) ∧ xs[j]? ≠ some x ∧ (i = j → x ∉ xs) := by
  obtain ⟨h1, h2, h3, h4, h5, h6⟩ := findRangeIf_spec (fun y => y == x) xs
  refine ⟨_, _, rfl, h1, h2, ?_, ?_, ?_, ?_⟩
  · intro hx; simpa using h3 x hx
  · intro y hy; simpa using h4 y hy
  · intro he; simpa using h5 x he
  · intro he hx
    have e := h6 he
    rw [e, List.take_length] at h3
    simpa using h3 x hx

/-! ### C83 `copy_bounded`, `copy_sentinal`, `copy_n`, `filter`, `iota` -/

/-- C83: both implementations of `copy_bounded` copy the first `min(n, m)` elements, never write
    outside of the destination range (the elements around it and the rest of it are unchanged),
    and return the positions reached in the source and in the destination. -/
theorem C83_copy_bounded (src before range after : List α) :
    copyBoundedLoop (before ++ range ++ after) before.length (before.length + range.length) 0 src =
      some (min src.length range.length, before.length + min src.length range.length,
        before ++ src.take range.length ++ range.drop src.length ++ after) ∧
    copyBoundedRA src (before ++ range ++ after) before.length (before.length + range.length) =
      some (min src.length range.length, before.length + min src.length range.length,
        before ++ src.take range.length ++ range.drop src.length ++ after) := by
  refine ⟨?_, copyBoundedRA_spec before range after src⟩
  rw [copyBoundedLoop_spec]; simp

/-- C83: both implementations of `copy_n` agree: they copy `n` elements over `n` elements of the
    destination and return the two positions reached. -/
theorem C83_copy_n (src rest before range after : List α) (h : src.length = range.length) :
    copyNLoop (src ++ rest) (before ++ range ++ after) src.length before.length 0 =
      some (src.length, before.length + src.length, before ++ src ++ after) ∧
    copyN (src ++ rest) (before ++ range ++ after) src.length before.length =
      some (src.length, before.length + src.length, before ++ src ++ after) := by
  constructor
  · simpa using copyNLoop_spec before range after [] src h rest
  · unfold copyN
    rw [if_pos (by simp), List.take_left, stdCopy_spec _ _ _ _ h]

/-- C83: `copy_sentinal` copies the elements before the first sentinel, stops at it without
    copying it, and reads nothing after it. -/
theorem C83_copy_sentinal [BEq α] [LawfulBEq α] (s : α) (src rest before range after : List α)
    (hs : s ∉ src) (h : src.length = range.length) :
    copySentinal s (before ++ range ++ after) before.length 0 (src ++ s :: rest) =
      some (src.length, before.length + src.length, before ++ src ++ after) := by
  rw [copySentinal_spec s _ _ _ _ _ _ hs h]; simp

/-- C83: `filter` threads the output iterator through `op` once for each element, in order. -/
theorem C83_filter {ω : Type} (op : α → ω → ω) (result : ω) (xs : List α) :
    filter op result xs = xs.foldl (fun r x => op x r) result := by
  induction xs generalizing result with
  | nil => rfl
  | cons x xs ih => simp [filter, ih]

/-- C83: `iota` assigns `value`, `++value`, ... and returns the next value. -/
theorem C83_iota (succ : β → β) (value : β) (xs : List β) :
    iota succ value xs =
      (succ^[xs.length] value, (List.range xs.length).map (fun i => succ^[i] value)) := by
  induction xs generalizing value with
  | nil => rfl
  | cons x xs ih =>
    simp only [iota, ih, List.length_cons, Function.iterate_succ, Function.comp_apply]
    rw [List.range_succ_eq_map]
    simp

end Verif.Algo
