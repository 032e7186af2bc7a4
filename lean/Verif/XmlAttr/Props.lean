import Verif.XmlAttr.Lemmas
import Mathlib.Data.List.Perm.Subperm
/-!
C89 (attribute sets are maps) and C90 (comparison of attribute sets).
-/
namespace Verif.XmlAttr
open Spec

variable {mem : Mem}

/-- The order of names is the documented one, and it is a strict total order on texts. -/
theorem C89_order (x y : Tok) :
    (tokenRangeLess mem x y = true ↔ Shortlex (x.text mem) (y.text mem)) ∧
    (tokenRangeEqual mem x y = true ↔ x.text mem = y.text mem) ∧
    (tokenRangeLess mem x y = true ∨ tokenRangeEqual mem x y = true ∨ tokenRangeLess mem y x = true) ∧
    ¬ (tokenRangeLess mem x y = true ∧ tokenRangeLess mem y x = true) := by
  refine ⟨tokenRangeLess_iff _ _ _, tokenRangeEqual_iff _ _ _, ?_, ?_⟩
  · rw [tokenRangeLess_iff, tokenRangeLess_iff, tokenRangeEqual_iff]; exact Shortlex.tri _ _
  · rw [tokenRangeLess_iff, tokenRangeLess_iff]; rintro ⟨h1, h2⟩; exact Shortlex.asymm h1 h2

theorem lookup_spec {s : List Attr} (hs : Sorted mem s) (k : Tok) :
    lookup mem s k = some (((s.find? fun a => decide (a.1.text mem = k.text mem)).map (·.2)).getD .null) := by
  obtain ⟨r, found, h1, h2, h3, h4, h5⟩ := lowerBound_spec hs (k, Tok.null)
  unfold lookup
  rw [h1]
  cases found with
  | true =>
    obtain ⟨hlt, hk⟩ := h5 rfl
    rw [hs.findAs (List.getElem_mem hlt) hk]; simp [List.getElem?_eq_getElem hlt]
  | false =>
    have : (s.find? fun a => decide (a.1.text mem = k.text mem)) = none := by
      apply Sorted.find_none
      intro b hb he
      rw [← List.take_append_drop r s] at hb
      rcases List.mem_append.1 hb with hb | hb
      · have := h3 b hb; rw [he] at this; exact Shortlex.irrefl _ this
      · have := h4 rfl b hb; rw [he] at this; exact Shortlex.irrefl _ this
    rw [this]; rfl

theorem insertAll_spec (as : List Attr) : ∀ {s : List Attr}, Sorted mem s →
    ∃ s', insertAll mem s as = some s' ∧ Sorted mem s' ∧
      ∀ k, (s'.find? fun a => decide (a.1.text mem = k)).map (·.2) =
        match lastGiven mem as k with
        | some a => some a.2
        | none => (s.find? fun a => decide (a.1.text mem = k)).map (·.2) := by
  induction as with
  | nil => intro s hs; exact ⟨s, rfl, hs, fun k => by simp [lastGiven]⟩
  | cons a as ih =>
    intro s hs
    obtain ⟨s1, k', h1, h2, h3, h4⟩ := insert_spec hs a
    obtain ⟨s2, g1, g2, g3⟩ := ih h2
    refine ⟨s2, by rw [insertAll, h1]; exact g1, g2, ?_⟩
    intro k
    rw [g3]
    unfold lastGiven
    rw [List.reverse_cons, List.find?_append]
    cases hl : as.reverse.find? fun a => decide (a.1.text mem = k) with
    | some b => simp
    | none =>
      simp only [Option.none_or, List.find?_cons, List.find?_nil]
      by_cases hk : a.1.text mem = k
      · simp only [hk, decide_true]
        have hm : (k', a.2) ∈ s1 := (h4 _).2 (.inr rfl)
        rw [h2.findAs hm (by rw [← hk]; exact h3)]; rfl
      · simp only [hk, decide_false]
        cases hf : s.find? fun a => decide (a.1.text mem = k) with
        | some b =>
          have hb := List.mem_of_find?_eq_some hf
          have hbk : b.1.text mem = k := by simpa using List.find?_some hf
          have hm : b ∈ s1 := (h4 _).2 (.inl ⟨hb, by simp only [key]; rw [hbk]; exact fun h => hk h.symm⟩)
          rw [h2.findAs hm hbk]
        | none =>
          have : (s1.find? fun a => decide (a.1.text mem = k)) = none := by
            apply Sorted.find_none
            intro b hb he
            rcases (h4 b).1 hb with ⟨hb, -⟩ | rfl
            · have := List.find?_eq_none.1 hf b hb; simp [he] at this
            · exact hk (h3.symm.trans he)
          rw [this]

/-- **C89** – `attribute_set_t` is a map by the text of names: after any sequence of insertions into a new set, `operator[]`
gives the value that was inserted last under that name, and the null range for every other name; no call reads outside of
the vector. -/
theorem C89_insert_lookup (as : List Attr) : ∃ s, insertAll mem [] as = some s ∧
    ∀ key, lookup mem s key = some (match lastGiven mem as (key.text mem) with
      | some a => a.2
      | none => .null) := by
  obtain ⟨s, h1, h2, h3⟩ := insertAll_spec (mem := mem) as (s := []) List.Pairwise.nil
  refine ⟨s, h1, ?_⟩
  intro k
  rw [lookup_spec h2, h3]
  cases lastGiven mem as (k.text mem) <;> rfl

/-- **C89** – iteration visits every name once, in increasing order, so that the size is the number of distinct names. -/
theorem C89_sorted_unique {s : List Attr} (hb : Built mem s) :
    (names mem s).Pairwise Shortlex ∧ (names mem s).Nodup := by
  have hs := built_sorted hb
  have h1 : (names mem s).Pairwise Shortlex := by
    unfold names; rw [List.pairwise_map]; exact hs
  refine ⟨h1, ?_⟩
  exact List.Pairwise.imp (fun {a b} h => by rintro rfl; exact Shortlex.irrefl _ h) h1

/-- **C89** – the names after any sequence of insertions are those inserted. -/
theorem C89_names (as : List Attr) : ∃ s, insertAll mem [] as = some s ∧
    ∀ n, n ∈ names mem s ↔ n ∈ names mem as := by
  obtain ⟨s, h1, h2, h3⟩ := insertAll_spec (mem := mem) as (s := []) List.Pairwise.nil
  refine ⟨s, h1, ?_⟩
  intro n
  have h := h3 n
  have e1 : n ∈ names mem s ↔ ((s.find? fun a => decide (a.1.text mem = n)).map (·.2)).isSome := by
    rw [Option.isSome_map, List.find?_isSome]; simp [names]
  have e2 : n ∈ names mem as ↔ (lastGiven mem as n).isSome := by
    rw [lastGiven, List.find?_isSome]; simp [names]
  rw [e1, e2, h]
  cases lastGiven mem as n <;> simp

/-- **C89** – `operator[]`, `insert` and `merge` on every set a client can make: one insertion changes the value of one
name. -/
theorem C89_insert {s : List Attr} (hb : Built mem s) (a : Attr) : ∃ s', insert mem s a = some s' ∧
    ∀ k, value mem s' k = if k = a.1.text mem then some (a.2.text mem) else value mem s k := by
  have hs := built_sorted hb
  obtain ⟨s', k', h1, h2, h3, h4⟩ := insert_spec hs a
  refine ⟨s', h1, ?_⟩
  intro k
  split
  · rename_i hk
    subst hk
    exact (value_mem h2 _ _).2 ⟨_, (h4 _).2 (.inr rfl), h3, rfl⟩
  · rename_i hk
    cases hv : value mem s k with
    | none =>
      rw [value_none] at hv ⊢
      intro b hb he
      rcases (h4 b).1 hb with ⟨hb, -⟩ | rfl
      · exact hv b hb he
      · exact hk (by rw [← he]; exact h3)
    | some v =>
      obtain ⟨b, hb, hbk, hbv⟩ := (value_mem hs _ _).1 hv
      exact (value_mem h2 _ _).2 ⟨b, (h4 b).2 (.inl ⟨hb, by rw [hbk]; exact hk⟩), hbk, hbv⟩

/-- **C89** – `merge` is the union in which the values of `*this` win. -/
theorem C89_merge {s t : List Attr} (hs : Built mem s) (ht : Built mem t) (k : List Nat) :
    value mem (merge mem s t) k = (value mem s k).or (value mem t k) := by
  have hs' := built_sorted hs
  have ht' := built_sorted ht
  obtain ⟨h1, h2⟩ := merge_spec hs' ht'
  cases hv : value mem s k with
  | some v =>
    obtain ⟨b, hb, hbk, hbv⟩ := (value_mem hs' _ _).1 hv
    exact (value_mem h1 _ _).2 ⟨b, (h2 b).2 (.inl hb), hbk, hbv⟩
  | none =>
    have hn := (value_none _).1 hv
    cases hw : value mem t k with
    | some v =>
      obtain ⟨b, hb, hbk, hbv⟩ := (value_mem ht' _ _).1 hw
      exact (value_mem h1 _ _).2 ⟨b, (h2 b).2 (.inr ⟨hb, fun c hc => by rw [hbk]; exact hn c hc⟩), hbk, hbv⟩
    | none =>
      have hn' := (value_none _).1 hw
      apply (value_none _).2
      intro b hb
      rcases (h2 b).1 hb with hb | ⟨hb, -⟩
      · exact hn b hb
      · exact hn' b hb

/-! ### C90 -/

/-- **C90** – `count_same` is the number of attributes that both sets have, with the same value or (`mapped_matters ==
false`) with any. -/
theorem C90_count_same {s t : List Attr} (hs : Built mem s) (ht : Built mem t) :
    countSame mem s t true = (s.filter fun a => value mem t (a.1.text mem) == some (a.2.text mem)).length ∧
    countSame mem s t false = (s.filter fun a => (value mem t (a.1.text mem)).isSome).length := by
  have hs' := built_sorted hs
  have ht' := built_sorted ht
  constructor
  · unfold countSame
    rw [if_pos rfl, setIntersection_spec (strictWeak_less mem) s t hs'.lessPairwise ht'.lessPairwise]
    congr 1
    apply List.filter_congr
    intro a _
    rw [Bool.eq_iff_iff, List.any_eq_true, beq_iff_eq, value_mem ht']
    simp only [lessIncomp, decide_eq_true_eq]
    constructor
    · rintro ⟨b, hb, h1, h2⟩; exact ⟨b, hb, h1.symm, h2.symm⟩
    · rintro ⟨b, hb, h1, h2⟩; exact ⟨b, hb, h1.symm, h2.symm⟩
  · unfold countSame
    rw [if_neg (by simp), setIntersection_spec (strictWeak_key mem) s t hs'.keyPairwise ht'.keyPairwise]
    congr 1
    apply List.filter_congr
    intro a _
    rw [Bool.eq_iff_iff, List.any_eq_true, Option.isSome_iff_exists]
    simp only [keyIncomp, decide_eq_true_eq]
    constructor
    · rintro ⟨b, hb, h1⟩; exact ⟨b.2.text mem, (value_mem ht' _ _).2 ⟨b, hb, h1.symm, rfl⟩⟩
    · rintro ⟨v, hv⟩
      obtain ⟨b, hb, h1, -⟩ := (value_mem ht' _ _).1 hv
      exact ⟨b, hb, h1.symm⟩

theorem names_length (s : List Attr) : (names mem s).length = s.length := by simp [names]

/-- **C90** – two attribute sets are equal if and only if they have the same names with the same values. -/
theorem C90_equal {s t : List Attr} (hs : Built mem s) (ht : Built mem t) :
    equal mem s t = true ↔ ∀ k, value mem s k = value mem t k := by
  have hs' := built_sorted hs
  have ht' := built_sorted ht
  unfold equal
  rw [Bool.and_eq_true, beq_iff_eq, beq_iff_eq, (C90_count_same hs ht).1]
  constructor
  · rintro ⟨hlen, hcount⟩
    have hall : ∀ a ∈ s, value mem t (a.1.text mem) = some (a.2.text mem) := by
      have := List.length_filter_eq_length_iff.1 hcount
      intro a ha; simpa using this a ha
    have hsub : ∀ n ∈ names mem s, n ∈ names mem t := by
      intro n hn
      obtain ⟨a, ha, rfl⟩ := List.mem_map.1 hn
      obtain ⟨b, hb, h1, -⟩ := (value_mem ht' _ _).1 (hall a ha)
      exact List.mem_map.2 ⟨b, hb, h1⟩
    have hsub' : ∀ n ∈ names mem t, n ∈ names mem s := by
      have hn := (C89_sorted_unique hs).2
      have hp : (names mem s).Subperm (names mem t) := List.subperm_of_subset hn hsub
      have hperm := hp.perm_of_length_le (by rw [names_length, names_length]; omega)
      exact fun n h => hperm.mem_iff.2 h
    intro k
    cases hv : value mem s k with
    | some v =>
      obtain ⟨a, ha, rfl, rfl⟩ := (value_mem hs' _ _).1 hv
      exact (hall a ha).symm
    | none =>
      symm
      rw [value_none] at hv ⊢
      intro b hb he
      obtain ⟨a, ha, hab⟩ := List.mem_map.1 (hsub' _ (List.mem_map.2 ⟨b, hb, rfl⟩))
      exact hv a ha (by simp only [key] at *; rw [hab, he])
  · intro h
    have hmem : ∀ n, n ∈ names mem s ↔ n ∈ names mem t := by
      intro n
      have e : ∀ u : List Attr, n ∈ names mem u ↔ value mem u n ≠ none := by
        intro u
        rw [ne_eq, value_none]
        simp [names, key]
      rw [e, e, h]
    have hlen : s.length = t.length := by
      rw [← names_length (mem := mem) s, ← names_length (mem := mem) t]
      have h1 := (List.subperm_of_subset (C89_sorted_unique hs).2 (fun n hn => (hmem n).1 hn)).length_le
      have h2 := (List.subperm_of_subset (C89_sorted_unique ht).2 (fun n hn => (hmem n).2 hn)).length_le
      omega
    refine ⟨hlen, ?_⟩
    rw [List.length_filter_eq_length_iff]
    intro a ha
    rw [← h, beq_iff_eq]
    exact (value_mem hs' _ _).2 ⟨a, ha, rfl, rfl⟩

/-- The names that both sets have, with different values. -/
def Spec.collisions (mem : Mem) (s t : List Attr) : List Attr :=
  s.filter fun a => match value mem t (a.1.text mem) with
    | some v => v != a.2.text mem
    | none => false

theorem lowerBound_value {t : List Attr} (ht : Sorted mem t) (a : Attr) :
    (∃ r, lowerBound mem t a = some (r, false) ∧ value mem t (a.1.text mem) = none) ∨
    (∃ r v, lowerBound mem t a = some (r, true) ∧ t[r]? = some v ∧ v.1.text mem = a.1.text mem ∧
      value mem t (a.1.text mem) = some (v.2.text mem)) := by
  obtain ⟨r, found, h1, h2, h3, h4, h5⟩ := lowerBound_spec ht a
  cases found with
  | true =>
    obtain ⟨hlt, hk⟩ := h5 rfl
    exact .inr ⟨r, t[r], h1, List.getElem?_eq_getElem hlt, hk, (value_mem ht _ _).2 ⟨_, List.getElem_mem hlt, hk, rfl⟩⟩
  | false =>
    refine .inl ⟨r, h1, (value_none _).2 ?_⟩
    intro b hb he
    rw [← List.take_append_drop r t] at hb
    rcases List.mem_append.1 hb with hb | hb
    · have := h3 b hb; rw [he] at this; exact Shortlex.irrefl _ this
    · have := h4 rfl b hb; rw [he] at this; exact Shortlex.irrefl _ this

/-- **C90** – `has_collisions` says whether a name has different values in the two sets. -/
theorem C90_has_collisions {s t : List Attr} (ht : Built mem t) :
    hasCollisions mem t s = some (decide (Spec.collisions mem s t ≠ [])) := by
  have ht' := built_sorted ht
  induction s with
  | nil => rfl
  | cons a s ih =>
    unfold hasCollisions
    rcases lowerBound_value ht' a with ⟨r, h1, h2⟩ | ⟨r, v, h1, h2, h3, h4⟩
    · rw [h1]; simp only
      rw [ih]; congr 2
      simp [Spec.collisions, List.filter_cons, h2]
    · rw [h1]; simp only [h2]
      by_cases he : v.2.text mem = a.2.text mem
      · rw [(tokenRangeEqual_iff _ _ _).2 he]
        simp only [Bool.not_true]
        rw [if_neg (by simp), ih]; congr 2
        simp [Spec.collisions, List.filter_cons, h4, he]
      · have : tokenRangeEqual mem v.2 a.2 = false := by
          rw [← Bool.not_eq_true, tokenRangeEqual_iff]; exact he
        rw [this]
        simp [Spec.collisions, List.filter_cons, h4, he]

/-- **C90** (partial) – `count_collisions` is the number of names with different values, provided that equal values of a
name common to both sets are the same range in memory.  Missing: the general case, which does not hold, since the code
compares the pointers and not the texts. -/
theorem C90_count_collisions_partial {s t : List Attr} (ht : Built mem t)
    (hsame : ∀ a ∈ s, ∀ b ∈ t, a.1.text mem = b.1.text mem → a.2.text mem = b.2.text mem → a.2 = b.2) :
    countCollisions mem t s = some (Spec.collisions mem s t).length := by
  have ht' := built_sorted ht
  induction s with
  | nil => rfl
  | cons a s ih =>
    have ih' := ih (fun a ha => hsame a (by simp [ha]))
    unfold countCollisions
    rcases lowerBound_value ht' a with ⟨r, h1, h2⟩ | ⟨r, v, h1, h2, h3, h4⟩
    · rw [h1]; simp only
      rw [ih']; congr 2
      simp [Spec.collisions, List.filter_cons, h2]
    · rw [h1]; simp only [h2, ih']
      have hv : v ∈ t := List.mem_of_getElem? h2
      by_cases he : v.2.text mem = a.2.text mem
      · have : a.2 = v.2 := hsame a (by simp) v hv h3.symm he.symm
        simp [Spec.collisions, List.filter_cons, h4, he, this]
      · have hne : v.2 ≠ a.2 := by intro h0; rw [h0] at he; exact he rfl
        simp [Spec.collisions, List.filter_cons, h4, he, hne]

/-- **C90** (in general) – `count_collisions` counts every name common to both sets whose values are not the same range in
memory; in particular it never counts too little. -/
theorem C90_count_collisions_at_least {s t : List Attr} (ht : Built mem t) :
    ∃ n, countCollisions mem t s = some n ∧ (Spec.collisions mem s t).length ≤ n := by
  have ht' := built_sorted ht
  induction s with
  | nil => exact ⟨0, rfl, by simp [Spec.collisions]⟩
  | cons a s ih =>
    obtain ⟨n, h, hn⟩ := ih
    unfold countCollisions
    rcases lowerBound_value ht' a with ⟨r, h1, h2⟩ | ⟨r, v, h1, h2, h3, h4⟩
    · rw [h1]; refine ⟨n, h, ?_⟩
      simpa [Spec.collisions, List.filter_cons, h2] using hn
    · rw [h1]; simp only [h2, h]
      refine ⟨_, rfl, ?_⟩
      by_cases he : v.2.text mem = a.2.text mem
      · simp only [Spec.collisions, List.filter_cons, h4, he] at hn ⊢
        simp only [bne_self_eq_false]
        rw [if_neg (by simp)]
        split <;> omega
      · have hne : v.2 ≠ a.2 := by intro h0; rw [h0] at he; exact he rfl
        rw [if_pos hne]
        simp only [Spec.collisions, List.filter_cons, h4] at hn ⊢
        rw [if_pos (by simpa using he)]
        simp; exact hn

/-- **C90** – the documentation says that `has_collisions()` is `count_collisions() != 0` and that a collision is a name
with *different values*: two sets which are equal, parsed from different places, have no collisions but
`count_collisions` counts one. -/
theorem C90_count_collisions_violated : ∃ (mem : Mem) (s t : List Attr), Built mem s ∧ Built mem t ∧
    equal mem s t = true ∧ hasCollisions mem t s = some false ∧ countCollisions mem t s = some 1 := by
  refine ⟨fun i => i % 2 + 97, [(⟨0, 1⟩, ⟨1, 2⟩)], [(⟨2, 3⟩, ⟨3, 4⟩)], ?_, ?_, ?_, ?_, ?_⟩
  · exact .insert (a := (⟨0, 1⟩, ⟨1, 2⟩)) .empty (by simp [insert, lowerBound, Search.lowerBound, Search.lowerBoundN])
  · exact .insert (a := (⟨2, 3⟩, ⟨3, 4⟩)) .empty (by simp [insert, lowerBound, Search.lowerBound, Search.lowerBoundN])
  · simp [equal, countSame, setIntersection, less, tokenRangeLess, Tok.size, mismatch]
  · rw [C90_has_collisions]
    · decide
    · exact .insert (a := (⟨2, 3⟩, ⟨3, 4⟩)) .empty (by simp [insert, lowerBound, Search.lowerBound, Search.lowerBoundN])
  · simp [countCollisions, lowerBound, Search.lowerBound, Search.lowerBoundN, lessKeyOnly, tokenRangeLess, Tok.size,
      mismatch, tokenRangeEqual, boundedEqual]

end Verif.XmlAttr
