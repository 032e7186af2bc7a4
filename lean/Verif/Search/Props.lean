import Verif.Search.Model
import Verif.Common.Order
/-
Properties C01, C02, C03 (bisection).  The hypotheses are the documented preconditions: the range is
partitioned with respect to the searched value (C01), or sorted by a strict weak order (C02, C03).
-/
namespace Verif.Search

variable {α β γ : Type}

/-- `l` is partitioned by `q` on offsets `[f, e)`: everything satisfying `q` comes first. -/
def PartitionedOn (l : List α) (q : α → Prop) (f e : Nat) : Prop :=
  ∀ i j (hi : i < l.length) (hj : j < l.length), f ≤ i → i ≤ j → j < e → q l[j] → q l[i]

/-- `k` is the partition point of `q` on offsets `[f, e)`. -/
def IsPartitionPoint (l : List α) (q : α → Prop) (f e k : Nat) : Prop :=
  f ≤ k ∧ k ≤ e ∧
  (∀ i (hi : i < l.length), f ≤ i → i < k → q l[i]) ∧
  (∀ i (hi : i < l.length), k ≤ i → i < e → ¬ q l[i])

/-- `l` is sorted with respect to comparator `c` on the projection `p`. -/
def SortedBy (l : List α) (c : β → β → Bool) (p : α → β) : Prop :=
  ∀ i j (hi : i < l.length) (hj : j < l.length), i ≤ j → c (p l[j]) (p l[i]) = false

private theorem half_lt {n : Nat} (h : n ≠ 0) : n >>> 1 < n := by
  rw [Nat.shiftRight_succ, Nat.shiftRight_zero]; omega

theorem lowerBoundN_spec (l : List α) (c : β → γ → Bool) (p : α → β) (x : γ) :
    ∀ n f, f + n ≤ l.length → PartitionedOn l (fun v => c (p v) x = true) f (f + n) →
      ∃ k, lowerBoundN l c p x f n = some k ∧
        IsPartitionPoint l (fun v => c (p v) x = true) f (f + n) k := by
  intro n
  induction n using Nat.strongRecOn with
  | ind n ih =>
    intro f hlen hp
    unfold lowerBoundN
    by_cases hn : n = 0
    · subst hn
      refine ⟨f, by simp, Nat.le_refl _, by omega, ?_, ?_⟩
      · intro i hi h1 h2; omega
      · intro i hi h1 h2; omega
    · have hh := half_lt hn
      have hm : f + n >>> 1 < l.length := by omega
      simp only [hn, dite_false, List.getElem?_eq_getElem hm]
      by_cases hc : c (p l[f + n >>> 1]) x = true
      · simp only [hc, if_true]
        obtain ⟨k, hk, h1, h2, h3, h4⟩ := ih (n - (n >>> 1 + 1)) (by omega) (f + n >>> 1 + 1)
          (by omega) (by
            intro i j hi hj a b d e
            exact hp i j hi hj (by omega) b (by omega) e)
        refine ⟨k, hk, by omega, by omega, ?_, ?_⟩
        · intro i hi a b
          by_cases hik : f + n >>> 1 + 1 ≤ i
          · exact h3 i hi hik b
          · exact hp i (f + n >>> 1) hi hm a (by omega) (by omega) hc
        · intro i hi a b
          exact h4 i hi a (by omega)
      · simp only [hc]
        obtain ⟨k, hk, h1, h2, h3, h4⟩ := ih (n >>> 1) hh f
          (by omega) (by
            intro i j hi hj a b d e
            exact hp i j hi hj a b (by omega) e)
        refine ⟨k, by simpa using hk, h1, by omega, h3, ?_⟩
        intro i hi a b hq
        by_cases hik : i < f + n >>> 1
        · exact h4 i hi a hik hq
        · exact hc (hp (f + n >>> 1) i hm hi (by omega) (by omega) b hq)

theorem upperBoundN_spec (l : List α) (c : γ → β → Bool) (p : α → β) (x : γ) :
    ∀ n f, f + n ≤ l.length → PartitionedOn l (fun v => c x (p v) = false) f (f + n) →
      ∃ k, upperBoundN l c p x f n = some k ∧
        IsPartitionPoint l (fun v => c x (p v) = false) f (f + n) k := by
  intro n
  induction n using Nat.strongRecOn with
  | ind n ih =>
    intro f hlen hp
    unfold upperBoundN
    by_cases hn : n = 0
    · subst hn
      refine ⟨f, by simp, Nat.le_refl _, by omega, ?_, ?_⟩
      · intro i hi h1 h2; omega
      · intro i hi h1 h2; omega
    · have hh := half_lt hn
      have hm : f + n >>> 1 < l.length := by omega
      simp only [hn, dite_false, List.getElem?_eq_getElem hm]
      by_cases hc : c x (p l[f + n >>> 1]) = false
      · simp only [hc]
        obtain ⟨k, hk, h1, h2, h3, h4⟩ := ih (n - (n >>> 1 + 1)) (by omega) (f + n >>> 1 + 1)
          (by omega) (by
            intro i j hi hj a b d e
            exact hp i j hi hj (by omega) b (by omega) e)
        refine ⟨k, by simpa using hk, by omega, by omega, ?_, ?_⟩
        · intro i hi a b
          by_cases hik : f + n >>> 1 + 1 ≤ i
          · exact h3 i hi hik b
          · exact hp i (f + n >>> 1) hi hm a (by omega) (by omega) hc
        · intro i hi a b
          exact h4 i hi a (by omega)
      · have hc' : c x (p l[f + n >>> 1]) = true := by simpa using hc
        simp only [hc']
        obtain ⟨k, hk, h1, h2, h3, h4⟩ := ih (n >>> 1) hh f
          (by omega) (by
            intro i j hi hj a b d e
            exact hp i j hi hj a b (by omega) e)
        refine ⟨k, by simpa using hk, h1, by omega, h3, ?_⟩
        intro i hi a b hq
        by_cases hik : i < f + n >>> 1
        · exact h4 i hi a hik hq
        · exact hc (hp (f + n >>> 1) i hm hi (by omega) (by omega) b hq)

/-- The partition point is unique. -/
theorem partitionPoint_unique {l : List α} {q : α → Prop} {f e k k' : Nat} (he : e ≤ l.length)
    (h : IsPartitionPoint l q f e k) (h' : IsPartitionPoint l q f e k') : k = k' := by
  obtain ⟨a1, a2, a3, a4⟩ := h
  obtain ⟨b1, b2, b3, b4⟩ := h'
  rcases Nat.lt_trichotomy k k' with hlt | heq | hgt
  · exact absurd (b3 k (by omega) (by omega) hlt) (a4 k (by omega) (by omega) (by omega))
  · exact heq
  · exact absurd (a3 k' (by omega) (by omega) hgt) (b4 k' (by omega) (by omega) (by omega))

/-! ### C01 -/

/-- C01 (lower bound): on every partitioned range `lower_bound` dereferences only valid positions
    and returns the first position whose projected element is not less than `x`. -/
theorem C01_lower_bound (l : List α) (c : β → γ → Bool) (p : α → β) (x : γ)
    (hp : PartitionedOn l (fun v => c (p v) x = true) 0 l.length) :
    ∃ k, lowerBound l c p x = some k ∧ k ≤ l.length ∧
      (∀ i (hi : i < l.length), i < k → c (p l[i]) x = true) ∧
      (∀ i (hi : i < l.length), k ≤ i → c (p l[i]) x = false) := by
  obtain ⟨k, hk, h1, h2, h3, h4⟩ := lowerBoundN_spec l c p x l.length 0 (by omega) (by simpa using hp)
  refine ⟨k, hk, by omega, fun i hi h => h3 i hi (by omega) h, ?_⟩
  intro i hi h
  simpa using h4 i hi h (by omega)

/-- C01 (upper bound): `upper_bound` returns the first position whose projected element is greater
    than `x`. -/
theorem C01_upper_bound (l : List α) (c : γ → β → Bool) (p : α → β) (x : γ)
    (hp : PartitionedOn l (fun v => c x (p v) = false) 0 l.length) :
    ∃ k, upperBound l c p x = some k ∧ k ≤ l.length ∧
      (∀ i (hi : i < l.length), i < k → c x (p l[i]) = false) ∧
      (∀ i (hi : i < l.length), k ≤ i → c x (p l[i]) = true) := by
  obtain ⟨k, hk, h1, h2, h3, h4⟩ := upperBoundN_spec l c p x l.length 0 (by omega) (by simpa using hp)
  refine ⟨k, hk, by omega, fun i hi h => h3 i hi (by omega) h, ?_⟩
  intro i hi h
  simpa using h4 i hi h (by omega)

/-- C01 (memory safety without the sortedness precondition): on *every* range, sorted or not,
    `lower_bound_n` stays inside `[f, f+n)` and returns a position of it. -/
theorem C01_lower_bound_safe (l : List α) (c : β → γ → Bool) (p : α → β) (x : γ) :
    ∀ n f, f + n ≤ l.length → ∃ k, lowerBoundN l c p x f n = some k ∧ f ≤ k ∧ k ≤ f + n := by
  intro n
  induction n using Nat.strongRecOn with
  | ind n ih =>
    intro f hlen
    unfold lowerBoundN
    by_cases hn : n = 0
    · subst hn; exact ⟨f, by simp, by omega, by omega⟩
    · have hh := half_lt hn
      have hm : f + n >>> 1 < l.length := by omega
      simp only [hn, dite_false, List.getElem?_eq_getElem hm]
      by_cases hc : c (p l[f + n >>> 1]) x = true
      · simp only [hc, if_true]
        obtain ⟨k, hk, h1, h2⟩ := ih (n - (n >>> 1 + 1)) (by omega) (f + n >>> 1 + 1) (by omega)
        exact ⟨k, hk, by omega, by omega⟩
      · simp only [hc]
        obtain ⟨k, hk, h1, h2⟩ := ih (n >>> 1) hh f (by omega)
        exact ⟨k, by simpa using hk, by omega, by omega⟩

/-- A sorted range is partitioned by "less than x". -/
theorem SortedBy.partLower {l : List α} {c : β → β → Bool} {p : α → β} (hc : StrictWeak c)
    (hs : SortedBy l c p) (x : β) (f e : Nat) :
    PartitionedOn l (fun v => c (p v) x = true) f e := by
  intro i j hi hj _ hij _ hq
  have h := hs i j hi hj hij
  by_cases h' : c (p l[i]) x = true
  · exact h'
  · have := hc.ntrans _ _ _ h (by simpa using h')
    simp_all

/-- A sorted range is partitioned by "not greater than x". -/
theorem SortedBy.partUpper {l : List α} {c : β → β → Bool} {p : α → β} (hc : StrictWeak c)
    (hs : SortedBy l c p) (x : β) (f e : Nat) :
    PartitionedOn l (fun v => c x (p v) = false) f e := by
  intro i j hi hj _ hij _ hq
  exact hc.ntrans _ _ _ hq (hs i j hi hj hij)

/-! ### C02 -/

theorem equalRangeN_spec {l : List α} {c : β → β → Bool} {p : α → β} (hc : StrictWeak c)
    (hs : SortedBy l c p) (x : β) :
    ∀ n f, f + n ≤ l.length →
      ∃ a b, equalRangeN l c p x f n = some (a, b) ∧
        IsPartitionPoint l (fun v => c (p v) x = true) f (f + n) a ∧
        IsPartitionPoint l (fun v => c x (p v) = false) f (f + n) b := by
  intro n
  induction n using Nat.strongRecOn with
  | ind n ih =>
    intro f hlen
    unfold equalRangeN
    by_cases hn : n = 0
    · subst hn
      refine ⟨f, f, by simp, ⟨Nat.le_refl _, by omega, ?_, ?_⟩, ⟨Nat.le_refl _, by omega, ?_, ?_⟩⟩ <;>
        (intro i hi h1 h2; omega)
    · have hh := half_lt hn
      have hm : f + n >>> 1 < l.length := by omega
      simp only [hn, dite_false, List.getElem?_eq_getElem hm]
      by_cases h1 : c (p l[f + n >>> 1]) x = true
      · simp only [h1, if_true]
        obtain ⟨a, b, hab, ⟨a1, a2, a3, a4⟩, ⟨b1, b2, b3, b4⟩⟩ :=
          ih (n - (n >>> 1 + 1)) (by omega) (f + n >>> 1 + 1) (by omega)
        have hnle : c x (p l[f + n >>> 1]) = false := by
          cases hx : c x (p l[f + n >>> 1]) with
          | false => rfl
          | true => have := hc.trans _ _ _ h1 hx; rw [hc.irrefl] at this; exact absurd this (by simp)
        refine ⟨a, b, hab, ⟨by omega, by omega, ?_, ?_⟩, ⟨by omega, by omega, ?_, ?_⟩⟩
        · intro i hi u v
          by_cases hik : f + n >>> 1 + 1 ≤ i
          · exact a3 i hi hik v
          · exact SortedBy.partLower hc hs x f (f+n) i _ hi hm u (by omega) (by omega) h1
        · intro i hi u v; exact a4 i hi u (by omega)
        · intro i hi u v
          by_cases hik : f + n >>> 1 + 1 ≤ i
          · exact b3 i hi hik v
          · exact SortedBy.partUpper hc hs x f (f+n) i _ hi hm u (by omega) (by omega) hnle
        · intro i hi u v; exact b4 i hi u (by omega)
      · by_cases h2 : c x (p l[f + n >>> 1]) = true
        · obtain ⟨a, b, hab, ⟨a1, a2, a3, a4⟩, ⟨b1, b2, b3, b4⟩⟩ := ih (n >>> 1) hh f (by omega)
          refine ⟨a, b, by simpa [h1, h2] using hab, ⟨by omega, by omega, a3, ?_⟩,
            ⟨by omega, by omega, b3, ?_⟩⟩
          · intro i hi u v hq
            by_cases hik : i < f + n >>> 1
            · exact a4 i hi u hik hq
            · exact h1 (SortedBy.partLower hc hs x f (f+n) _ i hm hi (by omega) (by omega) v hq)
          · intro i hi u v hq
            by_cases hik : i < f + n >>> 1
            · exact b4 i hi u hik hq
            · have := SortedBy.partUpper hc hs x f (f+n) _ i hm hi (by omega) (by omega) v hq
              simp_all
        · obtain ⟨a, ha, a1, a2, a3, a4⟩ := lowerBoundN_spec l c p x (n >>> 1) f (by omega)
            (SortedBy.partLower hc hs x _ _)
          obtain ⟨b, hb, b1, b2, b3, b4⟩ := upperBoundN_spec l c p x (n - (n >>> 1 + 1))
            (f + n >>> 1 + 1) (by omega) (SortedBy.partUpper hc hs x _ _)
          refine ⟨a, b, by simp [h1, h2, ha, hb], ⟨by omega, by omega, a3, ?_⟩,
            ⟨by omega, by omega, ?_, ?_⟩⟩
          · intro i hi u v hq
            by_cases hik : i < f + n >>> 1
            · exact a4 i hi u hik hq
            · exact h1 (SortedBy.partLower hc hs x f (f+n) _ i hm hi (by omega) (by omega) v hq)
          · intro i hi u v
            by_cases hik : f + n >>> 1 + 1 ≤ i
            · exact b3 i hi hik v
            · exact SortedBy.partUpper hc hs x f (f+n) i _ hi hm u (by omega) (by omega)
                (by simpa using h2)
          · intro i hi u v; exact b4 i hi u (by omega)

/-- C02: on a sorted range `equal_range` returns the pair of `lower_bound` and `upper_bound`, and the
    returned sub-range contains exactly the elements equivalent to `x`. -/
theorem C02_equal_range {l : List α} {c : β → β → Bool} {p : α → β} (hc : StrictWeak c)
    (hs : SortedBy l c p) (x : β) :
    ∃ a b, equalRange l c p x = some (a, b) ∧ lowerBound l c p x = some a ∧
      upperBound l c p x = some b ∧ a ≤ b ∧ b ≤ l.length ∧
      ∀ i (hi : i < l.length), (a ≤ i ∧ i < b) ↔ (c (p l[i]) x = false ∧ c x (p l[i]) = false) := by
  obtain ⟨a, b, hab, ha, hb⟩ := equalRangeN_spec hc hs x l.length 0 (by omega)
  obtain ⟨a', ha', pa⟩ := lowerBoundN_spec l c p x l.length 0 (by omega) (SortedBy.partLower hc hs x _ _)
  obtain ⟨b', hb', pb⟩ := upperBoundN_spec l c p x l.length 0 (by omega) (SortedBy.partUpper hc hs x _ _)
  have ea := partitionPoint_unique (by omega) ha pa
  have eb := partitionPoint_unique (by omega) hb pb
  subst ea; subst eb
  obtain ⟨a1, a2, a3, a4⟩ := ha
  obtain ⟨b1, b2, b3, b4⟩ := hb
  refine ⟨a, b, hab, ha', hb', ?_, by omega, ?_⟩
  · apply Decidable.byContradiction
    intro hlt
    have hb : b < l.length := by omega
    have h1 := a3 b hb (by omega) (by omega)
    have h2 := b4 b hb (by omega) (by omega)
    have h2' : c x (p l[b]) = true := by simpa using h2
    have := hc.trans _ _ _ h1 h2'
    rw [hc.irrefl] at this; exact absurd this (by simp)
  · intro i hi
    constructor
    · rintro ⟨u, v⟩
      exact ⟨by simpa using a4 i hi u (by omega), b3 i hi (by omega) v⟩
    · rintro ⟨u, v⟩
      constructor
      · apply Decidable.byContradiction; intro h
        have := a3 i hi (by omega) (by omega); simp_all
      · apply Decidable.byContradiction; intro h
        exact b4 i hi (by omega) (by omega) v

/-! ### C03 -/

/-- C03, for element types whose `==` coincides with equivalence under the comparator:
    `binary_search` returns a position of an element equivalent to `x` if there is one, otherwise end. -/
theorem C03_binary_search_partial {l : List α} {c eq : β → β → Bool} {p : α → β} (hc : StrictWeak c)
    (hs : SortedBy l c p) (x : β)
    (heq : ∀ a, eq a x = true ↔ (c a x = false ∧ c x a = false)) :
    ∃ k, binarySearch l c eq p x = some k ∧
      ((∃ v ∈ l, c (p v) x = false ∧ c x (p v) = false) →
        ∃ hk : k < l.length, c (p l[k]) x = false ∧ c x (p l[k]) = false) ∧
      ((¬ ∃ v ∈ l, c (p v) x = false ∧ c x (p v) = false) → k = l.length) := by
  obtain ⟨k, hk, hle, h3, h4⟩ := C01_lower_bound l c p x (SortedBy.partLower hc hs x _ _)
  unfold binarySearch
  rw [hk]
  by_cases hkl : k = l.length
  · refine ⟨l.length, by simp [hkl], ?_, fun _ => rfl⟩
    rintro ⟨v, hv, h1, h2⟩
    obtain ⟨i, hi, rfl⟩ := List.getElem_of_mem hv
    have := h3 i hi (by omega); simp_all
  · have hlt : k < l.length := by omega
    simp only [ne_eq, hkl, not_false_eq_true, if_true, List.getElem?_eq_getElem hlt]
    by_cases he : eq (p l[k]) x = true
    · refine ⟨k, by simp [he], fun _ => ⟨hlt, (heq _).1 he⟩, ?_⟩
      intro hno; exact absurd ⟨l[k], List.getElem_mem hlt, (heq _).1 he⟩ hno
    · refine ⟨l.length, by simp [he], ?_, fun _ => rfl⟩
      rintro ⟨v, hv, h1, h2⟩
      obtain ⟨i, hi, rfl⟩ := List.getElem_of_mem hv
      exfalso
      have hki : k ≤ i := by
        apply Decidable.byContradiction; intro h
        have := h3 i hi (by omega); simp_all
      apply he
      rw [heq]
      refine ⟨h4 k hlt (Nat.le_refl _), ?_⟩
      have hcik := hs k i hlt hi hki
      exact hc.ntrans _ _ _ h2 hcik

/-- C03 full statement fails: the code compares with `==`, so when `==` is finer than equivalence
    under the comparator an equivalent element may be present and not be found.
    Witness: order on the tens digit, `==` on the whole number, range `[10, 11]`, `x = 11`:
    even the element *equal* to `x` is missed. -/
theorem C03_binary_search_violated :
    ∃ (l : List Nat) (c eq : Nat → Nat → Bool) (x : Nat), StrictWeak c ∧
      SortedBy l c id ∧ (∀ a b, eq a b = true ↔ a = b) ∧ x ∈ l ∧
      binarySearch l c eq id x = some l.length := by
  refine ⟨[10, 11], fun a b => decide (a / 10 < b / 10), fun a b => a == b, 11, ?_, ?_, ?_, ?_, ?_⟩
  · constructor
    · intro a; simp
    · intro a b d; simp only [decide_eq_true_eq]; omega
    · intro a b d; simp only [decide_eq_false_iff_not]; omega
  · intro i j hi hj _
    simp only [List.length_cons, List.length_nil] at hi hj
    match i, j, hi, hj with
    | 0, 0, _, _ => simp
    | 0, 1, _, _ => simp
    | 1, 0, _, _ => simp
    | 1, 1, _, _ => simp
  · intro a b; simp
  · simp
  · simp [binarySearch, lowerBound, lowerBoundN]

/-- C03, whatever `==` is: what `binary_search` finds in a sorted range is equal to `x`, is not ordered before it, and everything in front
of it is. -/
theorem C03_found_partial {l : List α} {c eq : β → β → Bool} {p : α → β} (hc : StrictWeak c) (hs : SortedBy l c p) (x : β) :
    ∃ k, binarySearch l c eq p x = some k ∧ k ≤ l.length ∧ ∀ hk : k < l.length, eq (p l[k]) x = true ∧ c (p l[k]) x = false ∧
      ∀ i (hi : i < k), c (p (l[i]'(by omega))) x = true := by
  obtain ⟨k, hk, hle, h3, h4⟩ := C01_lower_bound l c p x (SortedBy.partLower hc hs x _ _)
  unfold binarySearch
  rw [hk]
  by_cases hkl : k = l.length
  · exact ⟨l.length, by simp [hkl], Nat.le_refl _, fun h => absurd h (Nat.lt_irrefl _)⟩
  · have hlt : k < l.length := by omega
    simp only [ne_eq, hkl, not_false_eq_true, if_true, List.getElem?_eq_getElem hlt]
    by_cases he : eq (p l[k]) x = true
    · exact ⟨k, by simp [he], hle, fun _ => ⟨he, h4 k hlt (Nat.le_refl _), fun i hi => h3 i (by omega) hi⟩⟩
    · exact ⟨l.length, by simp [he], Nat.le_refl _, fun h => absurd h (Nat.lt_irrefl _)⟩

/-- C03: `is_member` of a sorted range says whether the range has an element equivalent to `x`, for element types whose `==` coincides
with equivalence. -/
theorem C03_is_member_partial {l : List α} {c eq : α → α → Bool} (hc : StrictWeak c) (hs : SortedBy l c id) (x : α)
    (heq : ∀ a, eq a x = true ↔ (c a x = false ∧ c x a = false)) :
    ∃ b, isMember l c eq x = some b ∧ (b = true ↔ ∃ v ∈ l, c v x = false ∧ c x v = false) := by
  obtain ⟨k, h1, h2, h3⟩ := C03_binary_search_partial hc hs x heq
  refine ⟨decide (k ≠ l.length), by simp [isMember, h1], ?_⟩
  by_cases h : ∃ v ∈ l, c v x = false ∧ c x v = false
  · obtain ⟨hk, -⟩ := h2 h
    simp only [decide_eq_true_eq]
    exact ⟨fun _ => h, fun _ => by omega⟩
  · have := h3 h
    simp [this, h]

/-- C03: `is_member` may deny an element of the range (the comparison of the witness looks at the tens digit only). -/
theorem C03_is_member_violated :
    ∃ (l : List Nat) (c eq : Nat → Nat → Bool) (x : Nat), StrictWeak c ∧ SortedBy l c id ∧ (∀ a b, eq a b = true ↔ a = b) ∧ x ∈ l ∧
      isMember l c eq x = some false := by
  obtain ⟨l, c, eq, x, h1, h2, h3, h4, h5⟩ := C03_binary_search_violated
  exact ⟨l, c, eq, x, h1, h2, h3, h4, by simp [isMember, h5]⟩

/-! ### Non-vacuity -/

/-- C03_is_member_partial -/
example : isMember [1, 3, 3, 7] (fun a b : Nat => decide (a < b)) (fun a b => a == b) 3 = some true ∧
    isMember [1, 3, 3, 7] (fun a b : Nat => decide (a < b)) (fun a b => a == b) 4 = some false := by
  constructor <;> simp [isMember, binarySearch, lowerBound, lowerBoundN]

/-- `<` on naturals is a strict weak order and `[1,3,3,7]` is sorted by it: the premises of
    C01–C03 are satisfiable, and the bounds are the expected ones. -/
example : StrictWeak (fun a b : Nat => decide (a < b)) := by
  constructor
  · intro a; simp
  · intro a b d; simp only [decide_eq_true_eq]; omega
  · intro a b d; simp only [decide_eq_false_iff_not]; omega

example : SortedBy [1, 3, 3, 7] (fun a b : Nat => decide (a < b)) id := by
  intro i j hi hj hij
  simp only [List.length_cons, List.length_nil] at hi hj
  have : i < 4 := by omega
  have : j < 4 := by omega
  rcases i with _ | _ | _ | _ | i <;> rcases j with _ | _ | _ | _ | j <;> first | omega | simp

example : equalRange [1, 3, 3, 7] (fun a b : Nat => decide (a < b)) id 3 = some (1, 3) := by
  simp [equalRange, equalRangeN, lowerBoundN, upperBoundN]

end Verif.Search
