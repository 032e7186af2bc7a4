import Verif.Table.Model
import Verif.Search.Props
import Mathlib.Data.List.Basic
/-
C84, C85: `table_index`.
-/
namespace Verif.Table

variable {ι ρ κ : Type}

theorem sortedBy_of {rows : ι → ρ} {transform : ρ → κ} {compare : κ → κ → Bool}
    (hc : StrictWeak compare) {index : List ι}
    (h : index.Pairwise (fun a b => indirectCompare rows transform compare b a = false)) :
    Search.SortedBy index compare (fun p => transform (rows p)) := by
  intro i j hi hj hij
  rcases Nat.lt_or_eq_of_le hij with hlt | rfl
  · exact List.pairwise_iff_getElem.mp h i j hi hj hlt
  · exact hc.irrefl _

theorem insertRange_eq (index src : List ι) (pos : Nat) (h : pos ≤ index.length) :
    insertRange index pos src = index.take pos ++ src ++ index.drop pos := by
  induction src generalizing index pos with
  | nil => simp [insertRange]
  | cons x xs ih =>
    have hl : (index.take pos).length = pos := by simp; omega
    have e : vecInsert index pos x = (index.take pos ++ [x]) ++ index.drop pos := by
      simp [vecInsert]
    have hl2 : (index.take pos ++ [x]).length = pos + 1 := by simp; omega
    rw [insertRange, ih _ _ (by rw [e]; simp; omega), e, ← hl2, List.take_left, List.drop_left]
    simp

/-- C84: `insert(position, first, last)` places the elements before `position` in their order;
    with `position == end()` it is repeated `push_back`, so that a new index has the order of the
    table. -/
theorem C84_insert_range (index src : List ι) (pos : Nat) (h : pos ≤ index.length) :
    insertRange index pos src = index.take pos ++ src ++ index.drop pos ∧
    insertRange index index.length src = src.foldl pushBack index := by
  refine ⟨insertRange_eq index src pos h, ?_⟩
  rw [insertRange_eq _ _ _ (Nat.le_refl _)]
  have : ∀ (src index : List ι), src.foldl pushBack index = index ++ src := by
    intro src
    induction src with
    | nil => simp
    | cons x xs ih => intro index; simp [ih, pushBack]
  simp [this]

section
variable [BEq κ] [LawfulBEq κ] {rows : ι → ρ} {transform : ρ → κ} {compare : κ → κ → Bool}

/-- C84: after `sort`, for every ordering whose equivalence is equality of keys: `find` returns an
    element of the table with the key if there is one and `end()` otherwise. -/
theorem C84_find_partial (hc : StrictWeak compare)
    (heq : ∀ a b, compare a b = false → compare b a = false → a = b)
    {index sorted : List ι} (hs : SortResult rows transform compare index sorted) (key : κ) :
    ∃ k, find rows transform compare sorted key = some k ∧ k ≤ sorted.length ∧
      ((∃ p ∈ index, transform (rows p) = key) ↔ k < sorted.length) ∧
      (∀ p, sorted[k]? = some p → p ∈ index ∧ transform (rows p) = key) := by
  obtain ⟨k, hk, hle, h3, h4⟩ := Search.C01_lower_bound sorted compare (fun p => transform (rows p))
    key (Search.SortedBy.partLower hc (sortedBy_of hc hs.2) key _ _)
  have hmem : ∀ p, p ∈ sorted ↔ p ∈ index := fun p => hs.1.mem_iff
  unfold find lowerBound
  simp only [hk]
  by_cases hlt : k < sorted.length
  · simp only [bne_iff_ne, ne_eq, show k ≠ sorted.length by omega, not_false_eq_true, if_true,
      List.getElem?_eq_getElem hlt]
    by_cases hkey : transform (rows sorted[k]) = key
    · refine ⟨k, by simp [hkey], hle, ?_, ?_⟩
      · exact ⟨fun _ => hlt, fun _ => ⟨sorted[k], (hmem _).mp (List.getElem_mem hlt), hkey⟩⟩
      · intro p hp
        rw [List.getElem?_eq_getElem hlt, Option.some.injEq] at hp
        subst hp
        exact ⟨(hmem _).mp (List.getElem_mem hlt), hkey⟩
    · refine ⟨sorted.length, by simp [hkey], Nat.le_refl _, ?_, ?_⟩
      · refine ⟨?_, fun h => absurd h (Nat.lt_irrefl _)⟩
        rintro ⟨p, hp, he⟩
        exfalso
        obtain ⟨i, hi, rfl⟩ := List.getElem_of_mem ((hmem p).mpr hp)
        have hki : k ≤ i := by
          by_contra hlt2
          have := h3 i hi (by omega)
          rw [he, hc.irrefl] at this
          cases this
        -- sorted[k] ≤ sorted[i] = key and not sorted[k] < key
        have h5 := (sortedBy_of hc hs.2) k i hlt hi hki
        simp only [he] at h5
        exact hkey (heq _ _ (h4 k hlt (Nat.le_refl _)) h5)
      · intro p hp
        rw [List.getElem?_eq_none (Nat.le_refl _)] at hp
        cases hp
  · have he : k = sorted.length := by omega
    subst he
    refine ⟨sorted.length, by simp, Nat.le_refl _, ?_, ?_⟩
    · refine ⟨?_, fun h => absurd h (Nat.lt_irrefl _)⟩
      rintro ⟨p, hp, he⟩
      obtain ⟨i, hi, rfl⟩ := List.getElem_of_mem ((hmem p).mpr hp)
      have := h3 i hi hi
      rw [he, hc.irrefl] at this
      cases this
    · intro p hp
      rw [List.getElem?_eq_none (Nat.le_refl _)] at hp
      cases hp

/-- C84: `operator[]` returns an element with the key, or throws `range_error` exactly if the table
    has none; it never reads outside of the index. -/
theorem C84_subscript_partial (hc : StrictWeak compare)
    (heq : ∀ a b, compare a b = false → compare b a = false → a = b)
    {index sorted : List ι} (hs : SortResult rows transform compare index sorted) (key : κ) :
    (∃ p ∈ index, at' rows transform compare sorted key = .found p ∧ transform (rows p) = key) ∨
    ((∀ p ∈ index, transform (rows p) ≠ key) ∧
      at' rows transform compare sorted key = .rangeError) := by
  obtain ⟨k, h1, h2, h3, h4⟩ := C84_find_partial hc heq hs key
  unfold at'
  rw [h1]
  by_cases hlt : k < sorted.length
  · left
    have := h4 _ (List.getElem?_eq_getElem hlt)
    refine ⟨sorted[k], this.1, ?_, this.2⟩
    simp [show k ≠ sorted.length by omega, List.getElem?_eq_getElem hlt]
  · right
    refine ⟨fun p hp he => hlt (h3.mp ⟨p, hp, he⟩), ?_⟩
    simp [show k = sorted.length by omega]

/-- C84 (violated): if two different keys are equivalent in the ordering (for example a case
    insensitive one), `find` can fail for a key that is in the sorted table. -/
theorem C84_find_equivalent_keys_violated (rows : ι → ρ) (transform : ρ → κ)
    (compare : κ → κ → Bool) (hc : StrictWeak compare) (p q : ι)
    (hpq : transform (rows p) ≠ transform (rows q))
    (h1 : compare (transform (rows p)) (transform (rows q)) = false)
    (h2 : compare (transform (rows q)) (transform (rows p)) = false) :
    SortResult rows transform compare [p, q] [p, q] ∧
      find rows transform compare [p, q] (transform (rows q)) = some [p, q].length := by
  have hs : SortResult rows transform compare [p, q] [p, q] := by
    refine ⟨List.Perm.refl _, ?_⟩
    simp [indirectCompare, h2]
  refine ⟨hs, ?_⟩
  obtain ⟨k, hk, hle, h3, h4⟩ := Search.C01_lower_bound [p, q] compare (fun p => transform (rows p))
    (transform (rows q)) (Search.SortedBy.partLower hc (sortedBy_of hc hs.2) _ _ _)
  have : k = 0 := by
    by_contra hne
    have := h3 0 (by simp) (by omega)
    simp only [List.getElem_cons_zero] at this
    rw [h1] at this; cases this
  subst this
  simp [find, lowerBound, hk, hpq]

end

/-- C84: after `sort`, `equal_range(key)` delimits exactly the elements whose key is equivalent to
    `key`, as many as the table has. -/
theorem C84_equal_range {rows : ι → ρ} {transform : ρ → κ} {compare : κ → κ → Bool}
    (hc : StrictWeak compare) {index sorted : List ι}
    (hs : SortResult rows transform compare index sorted) (key : κ) :
    ∃ a b, equalRange rows transform compare sorted key = some (a, b) ∧
      lowerBound rows transform compare sorted key = some a ∧
      upperBound rows transform compare sorted key = some b ∧ a ≤ b ∧ b ≤ sorted.length ∧
      ∀ i (hi : i < sorted.length), (a ≤ i ∧ i < b) ↔
        (compare (transform (rows sorted[i])) key = false ∧
          compare key (transform (rows sorted[i])) = false) :=
  Search.C02_equal_range hc (sortedBy_of hc hs.2) key

/-! ### C85 `unique` -/

theorem uniqueLoop_sorted {rows : ι → ρ} {transform : ρ → κ} {compare : κ → κ → Bool}
    (hc : StrictWeak compare) (x k : ι) (xs : List ι)
    (hkx : indirectCompare rows transform compare x k = false)
    (hxk : indirectCompare rows transform compare k x = false)
    (hx : ∀ y ∈ xs, indirectCompare rows transform compare y x = false) :
    uniqueLoop (indirectCompare rows transform compare) k xs =
      xs.filter (fun y => !(indirectCompare rows transform compare x y)) := by
  induction xs generalizing k with
  | nil => rfl
  | cons y ys ih =>
    have hys : ∀ w ∈ ys, indirectCompare rows transform compare w x = false :=
      fun w hw => hx w (List.mem_cons_of_mem _ hw)
    unfold uniqueLoop
    have hyx := hx y (by simp)
    by_cases hxy : indirectCompare rows transform compare x y = true
    · have hky : indirectCompare rows transform compare k y = true := by
        rw [← Bool.not_eq_false]
        intro hf
        have := hc.ntrans _ _ _ hkx hf
        unfold indirectCompare at hxy
        rw [hxy] at this; cases this
      simp [hky, hxy, ih k hkx hxk hys]
    · have hxy' : indirectCompare rows transform compare x y = false := by simpa using hxy
      have hky : indirectCompare rows transform compare k y = false :=
        hc.ntrans _ _ _ hxk hxy'
      simp [hky, hxy', ih y hxy' hyx hys]

/-- What `unique()` does to a sorted index: it keeps the elements whose key is equivalent to the
    smallest key, all of them, and drops every other element. -/
theorem unique_sorted {rows : ι → ρ} {transform : ρ → κ} {compare : κ → κ → Bool}
    (hc : StrictWeak compare) {x : ι} {xs index : List ι}
    (hs : SortResult rows transform compare index (x :: xs)) :
    unique rows transform compare (x :: xs) =
      (x :: xs).filter (fun y => !(indirectCompare rows transform compare x y)) := by
  have hx : ∀ y ∈ xs, indirectCompare rows transform compare y x = false :=
    (List.pairwise_cons.mp hs.2).1
  have hxx : indirectCompare rows transform compare x x = false := hc.irrefl _
  simp only [unique, stdUnique]
  rw [uniqueLoop_sorted hc x x xs hxx hxx hx]
  simp [hxx]

/-- C85 (partial): the documented "reduces the index to a single value per key" on a sorted index
    holds in the part that remains: the elements kept are elements of the index, in order, with the
    smallest key.  Missing: everything else, see the violations. -/
theorem C85_unique_partial {rows : ι → ρ} {transform : ρ → κ} {compare : κ → κ → Bool}
    (hc : StrictWeak compare) {index sorted : List ι}
    (hs : SortResult rows transform compare index sorted) :
    (unique rows transform compare sorted).Sublist sorted ∧
    (∀ p ∈ unique rows transform compare sorted, ∀ q ∈ index,
      indirectCompare rows transform compare q p = false) ∧
    (∀ p ∈ index, (∀ q ∈ index, indirectCompare rows transform compare q p = false) →
      p ∈ unique rows transform compare sorted) := by
  cases sorted with
  | nil =>
    have : index = [] := by simpa using hs.1.symm
    subst this
    simp [unique, stdUnique]
  | cons x xs =>
    rw [unique_sorted hc hs]
    have hmem : ∀ p, p ∈ x :: xs ↔ p ∈ index := fun p => hs.1.mem_iff
    have hx : ∀ y ∈ x :: xs, indirectCompare rows transform compare y x = false := by
      intro y hy
      rcases List.mem_cons.mp hy with rfl | hy
      · exact hc.irrefl _
      · exact (List.pairwise_cons.mp hs.2).1 y hy
    refine ⟨List.filter_sublist, ?_, ?_⟩
    · intro p hp q hq
      have hp2 := (List.mem_filter.mp hp).2
      have hp3 : indirectCompare rows transform compare x p = false := by simpa using hp2
      exact hc.ntrans _ _ _ (hx q ((hmem q).mpr hq)) hp3
    · intro p hp hq
      refine List.mem_filter.mpr ⟨(hmem p).mpr hp, ?_⟩
      simpa using hq x ((hmem x).mp (by simp))

/-- C85 (violated): `unique()` on a sorted index loses every key but the smallest. -/
theorem C85_unique_loses_keys_violated {rows : ι → ρ} {transform : ρ → κ}
    {compare : κ → κ → Bool} (hc : StrictWeak compare) {index sorted : List ι}
    (hs : SortResult rows transform compare index sorted) (p q : ι) (hp : p ∈ index)
    (hlt : indirectCompare rows transform compare p q = true) :
    q ∉ unique rows transform compare sorted := by
  intro hq
  have := (C85_unique_partial hc hs).2.1 q hq p hp
  rw [hlt] at this; cases this

/-- C85 (violated): `unique()` on a sorted index keeps all the duplicates of the smallest key. -/
theorem C85_unique_keeps_duplicates_violated {rows : ι → ρ} {transform : ρ → κ}
    {compare : κ → κ → Bool} (hc : StrictWeak compare) (index : List ι)
    (h : ∀ p ∈ index, ∀ q ∈ index, indirectCompare rows transform compare p q = false) :
    SortResult rows transform compare index index ∧
      unique rows transform compare index = index := by
  have hs : SortResult rows transform compare index index := by
    refine ⟨List.Perm.refl _, ?_⟩
    exact List.pairwise_of_forall_mem_list fun a ha b hb => h b hb a ha
  refine ⟨hs, ?_⟩
  cases index with
  | nil => rfl
  | cons x xs =>
    rw [unique_sorted hc hs, List.filter_eq_self]
    intro a ha
    simp [h x (by simp) a ha]

end Verif.Table
